import Verif.Proof.CacheMore
import Verif.Proof.CacheFlush
import Verif.Proof.CacheGhost

/-!
# Properties C01–C11: the cache used by one goroutine at a time

A history is a list of calls, each with its own environment (clock readings, validator answers). Specification:
`Verif/Spec/Cache.lean`.
-/

namespace Xcore.Cache

open Spec

variable {D : Type}

/-- A sample environment: all clocks read `t`; the validator accepts everything. -/
def at_ (t : Int) : Env := ⟨fun _ => t, fun _ => t, fun _ _ => true⟩

/-- A sample environment: all clocks read `t`; the validator refuses everything. -/
def refuseAt (t : Int) : Env := ⟨fun _ => t, fun _ => t, fun _ _ => false⟩

/-- `Fresh`, computed. -/
def freshB (c : Cache D) (env : Env) : Bool := c.items.all fun p => decide (¬ deadlinePassed c.expire p.2.ctime (env.clkAt p.1))

theorem fresh_of_check {c : Cache D} {env : Env} : freshB c env = true → Fresh c env := by
  intro h k e he
  have := List.all_eq_true.1 h (k, e) (AMap.mem_of_get he)
  simpa using this

/-- `OrderlyRun`, computed. -/
def orderlyB (c : Cache D) : List (Env × Op D) → Bool
  | [] => true
  | (env, op) :: h => (match op with
      | .flush => decide (count c = 0)
      | .clean p => decide (p ≤ 100) && freshB c env
      | .verify => freshB c env
      | .set k _ => decide (¬ deadlinePassed c.expire (env.clk 0) (env.clkAt k)) && freshB c env
      | _ => true) && orderlyB (step c env op).1 h

theorem orderlyRun_of_check {c : Cache D} {h : List (Env × Op D)} : orderlyB c h = true → OrderlyRun c h := by
  induction h generalizing c with
  | nil => intro _; trivial
  | cons p h ih =>
    obtain ⟨env, op⟩ := p
    intro hb
    simp only [orderlyB, Bool.and_eq_true] at hb
    refine ⟨?_, ih hb.2⟩
    have h1 := hb.1
    cases op with
    | set k d =>
      simp only [Bool.and_eq_true, decide_eq_true_eq] at h1
      exact fun _ => ⟨h1.1, fun k' e _ => fresh_of_check h1.2 k' e⟩
    | clean p =>
      simp only [Bool.and_eq_true, decide_eq_true_eq] at h1
      exact ⟨h1.1, fresh_of_check h1.2⟩
    | verify => exact fresh_of_check h1
    | flush => exact of_decide_eq_true (p := count c = 0) h1
    | _ => trivial

/-! ## C01 -/

/-- **C01** In any history, `Get(k)` answers what an ideal unlimited cache (latest Set wins, deleted / flushed / expired entries
gone) would answer, or the key was evicted and it answers `nil, false`. -/
theorem C01_get_reflects_latest_set (m e : Int) (h : List (Env × Op D)) (env : Env) (k : Str) :
    (get (run (new m e) h).1 env k).2 = answer (after (Ideal.empty e) h) env k ∨
      (get (run (new m e) h).1 env k).2 = (none, false) := by
  rcases ((Sub.new m e).run h).answer_or_miss env k with h1 | ⟨_, h1⟩
  · exact Or.inl h1
  · exact Or.inr h1

/-- **C01** As long as no call of the history could evict (no positive Clean, no Set reaching the limit), the answer is exactly
the ideal one. -/
theorem C01_get_exact_without_eviction (m e : Int) (h : List (Env × Op D)) (hq : Quiet (new m e) h) (env : Env) (k : Str) :
    (get (run (new m e) h).1 env k).2 = answer (after (Ideal.empty e) h) env k :=
  ((Same.new m e).run h hq).answer env k

/-- **C01** With Maxitems ≤ 0 and no positive Clean, the answer is exactly the ideal one. -/
theorem C01_get_exact_unlimited (m e : Int) (hm : m ≤ 0) (h : List (Env × Op D)) (hf : ∀ p ∈ h, CapacityFree p.2)
    (env : Env) (k : Str) :
    (get (run (new m e) h).1 env k).2 = answer (after (Ideal.empty e) h) env k :=
  C01_get_exact_without_eviction m e h (quiet_of_capacityFree hm hf) env k

theorem next_tab_of_not_touches (s : Ideal D) (env : Env) (op : Op D) (k : Str) (r : Rec D) (hn : ¬ Touches k op)
    (h : (next s env op).tab k = some r) : ∃ r', s.tab k = some r' ∧ r'.data = r.data := by
  cases op with
  | set k' d =>
    have hne : ¬ k = k' := fun e => hn e.symm
    simp only [next, upd, if_neg hne] at h; exact ⟨r, h, rfl⟩
  | setTTL k' t =>
    simp only [next, upd] at h
    split at h
    · rename_i hk; subst hk
      cases hs : s.tab k with
      | none => simp [hs] at h
      | some r' => simp [hs] at h; exact ⟨r', rfl, by rw [← h]⟩
    · exact ⟨r, h, rfl⟩
  | get k' =>
    simp only [next, keep] at h
    cases hs : s.tab k with
    | none => simp [hs] at h
    | some r' => rw [hs] at h; dsimp only at h; split at h <;> simp at h; exact ⟨r', rfl, by rw [h]⟩
  | del k' =>
    have hne : ¬ k = k' := fun e => hn e.symm
    simp only [next, upd, if_neg hne] at h; exact ⟨r, h, rfl⟩
  | count => exact ⟨r, h, rfl⟩
  | clean p =>
    simp only [next, keep] at h
    cases hs : s.tab k with
    | none => simp [hs] at h
    | some r' => rw [hs] at h; dsimp only at h; split at h <;> simp at h; exact ⟨r', rfl, by rw [h]⟩
  | verify =>
    simp only [next, keep] at h
    cases hs : s.tab k with
    | none => simp [hs] at h
    | some r' => rw [hs] at h; dsimp only at h; split at h <;> simp at h; exact ⟨r', rfl, by rw [h]⟩
  | flush => exact absurd trivial hn
  | setMaxitems m => exact ⟨r, h, rfl⟩
  | setExpire e => exact ⟨r, h, rfl⟩
  | setValidator b => exact ⟨r, h, rfl⟩

theorem after_provenance (h : List (Env × Op D)) (k : Str) : ∀ (s : Ideal D) (r : Rec D), (after s h).tab k = some r →
    (∃ h1 env1 h2, h = h1 ++ (env1, .set k r.data) :: h2 ∧ ∀ p ∈ h2, ¬ Touches k p.2) ∨
    ((∃ r', s.tab k = some r' ∧ r'.data = r.data) ∧ ∀ p ∈ h, ¬ Touches k p.2) := by
  induction h with
  | nil => intro s r hr; exact Or.inr ⟨⟨r, hr, rfl⟩, by simp⟩
  | cons p h ih =>
    intro s r hr
    obtain ⟨env, op⟩ := p
    rcases ih (next s env op) r hr with ⟨h1, env1, h2, he, hn⟩ | ⟨⟨r', hr', hd⟩, hn⟩
    · exact Or.inl ⟨(env, op) :: h1, env1, h2, by simp [he], hn⟩
    · by_cases ht : Touches k op
      · left
        cases op with
        | set k' d =>
          have : k' = k := ht
          subst this
          simp only [next, upd, if_true, Option.some.injEq] at hr'
          refine ⟨[], env, h, ?_, hn⟩
          rw [← hd, ← hr']; rfl
        | del k' =>
          have : k' = k := ht
          subst this
          simp [next, upd] at hr'
        | flush => simp [next] at hr'
        | setTTL k' t => exact absurd ht id
        | get k' => exact absurd ht id
        | count => exact absurd ht id
        | clean p => exact absurd ht id
        | verify => exact absurd ht id
        | setMaxitems m => exact absurd ht id
        | setExpire e => exact absurd ht id
        | setValidator b => exact absurd ht id
      · right
        obtain ⟨r2, h2, hd2⟩ := next_tab_of_not_touches s env op k r' ht hr'
        refine ⟨⟨r2, h2, by rw [hd2, hd]⟩, ?_⟩
        intro p hp
        simp only [List.mem_cons] at hp
        rcases hp with rfl | hp
        · exact ht
        · exact hn p hp

/-- **C01** Data returned by `Get(k)` is the data of the latest `Set(k,_)` of the history, and neither `Del(k)` nor `Flush` came
after that Set. -/
theorem C01_returned_data_is_latest_set (m e : Int) (h : List (Env × Op D)) (env : Env) (k : Str) (v : D) (b : Bool)
    (hg : (get (run (new m e) h).1 env k).2 = (some v, b)) :
    b = false ∧ ∃ h1 env1 h2, h = h1 ++ (env1, .set k v) :: h2 ∧ ∀ p ∈ h2, ¬ Touches k p.2 := by
  rcases C01_get_reflects_latest_set m e h env k with h1 | h1
  · rw [hg] at h1
    unfold answer at h1
    cases hs : (after (Ideal.empty e) h).tab k with
    | none => simp [hs] at h1
    | some r =>
      rw [hs] at h1
      dsimp only at h1
      split at h1
      · simp at h1
      · simp only [Prod.mk.injEq, Option.some.injEq] at h1
        refine ⟨h1.2, ?_⟩
        rcases after_provenance h k _ r hs with h2 | ⟨⟨r', h2, _⟩, _⟩
        · rw [h1.1]; exact h2
        · simp [Ideal.empty] at h2
  · rw [hg] at h1; simp at h1

/-- Non-vacuity: a history with two Sets of `k`, a Del of another key and an expiry; the ideal answers are the three cases. -/
example :
    let h : List (Env × Op Nat) :=
      [(at_ 0, .set b!"k" 1), (at_ 1, .set b!"x" 7), (at_ 2, .set b!"k" 2), (at_ 3, .del b!"x"), (at_ 3, .set b!"t" 9),
       (at_ 3, .setTTL b!"t" 5)]
    answer (after (Ideal.empty 0) h) (at_ 4) b!"k" = (some 2, false) ∧
    answer (after (Ideal.empty 0) h) (at_ 4) b!"x" = (none, false) ∧
    answer (after (Ideal.empty 0) h) (at_ 9) b!"t" = (none, true) ∧
    (∀ p ∈ h, CapacityFree p.2) := by
  refine ⟨by decide, by decide, by decide, ?_⟩
  intro p hp
  simp only [List.mem_cons, List.not_mem_nil, or_false] at hp
  rcases hp with rfl | rfl | rfl | rfl | rfl | rfl <;> trivial

/-! ## C02 -/

theorem invalid_iff_InvalidNow (c : Cache D) (env : Env) (k : Str) (e : Entry D) :
    invalid c env k e = true ↔ InvalidNow c env k e.ctime e.ttl :=
  invalid_iff_Bad c env k e ⟨c.expire, c.hasValidator, fun _ => none⟩ rfl rfl

/-- **C02** If `Get(k)` reports an invalid entry then the data is nil, the entry was present and invalid for one of the three
reasons, exactly one entry disappears, every other key is read as before, and a second `Get(k)` is a plain miss. -/
theorem C02_invalid_reported_once (c : Cache D) (hc : Reachable c) (env : Env) (k : Str)
    (h : (get c env k).2.2 = true) :
    (get c env k).2.1 = none ∧
    (∃ e, c.items.get k = some e ∧ InvalidNow c env k e.ctime e.ttl) ∧
    count (get c env k).1 + 1 = count c ∧
    (∀ env' k', k' ≠ k → (get (get c env k).1 env' k').2 = (get c env' k').2) ∧
    (∀ env', (get (get c env k).1 env' k).2 = (none, false)) := by
  have hn := reachable_nodup hc
  rw [get_snd] at h ⊢
  cases hk : c.items.get k with
  | none => simp [hk] at h
  | some e =>
    rw [hk] at h
    dsimp only at h ⊢
    by_cases hi : invalid c env k e = true
    · have hst : (get c env k).1 = del c k := by simp [get, hk, hi]
      refine ⟨by simp [hi], ⟨e, rfl, (invalid_iff_InvalidNow c env k e).1 hi⟩, ?_, ?_, ?_⟩
      · rw [hst]
        have := AMap.length_del_of_mem hn ((AMap.mem_keys_iff _ _).2 ⟨e, hk⟩)
        simpa [count, del] using this
      · intro env' k' hne
        rw [hst, get_snd, get_snd]
        simp only [del, AMap.get_del, if_neg hne]
        cases c.items.get k' <;> rfl
      · intro env'
        rw [hst, get_snd]
        simp [del, AMap.get_del]
    · simp [hi] at h

/-- **C02** Conversely a present invalid entry is always reported as invalid. -/
theorem C02_invalid_is_reported (c : Cache D) (env : Env) (k : Str) (e : Entry D) (he : c.items.get k = some e)
    (hi : InvalidNow c env k e.ctime e.ttl) : (get c env k).2 = (none, true) := by
  rw [get_snd, he]
  dsimp only
  rw [if_pos ((invalid_iff_InvalidNow c env k e).2 hi)]

/-- Non-vacuity: an expired entry in a cache of two. -/
example :
    let c : Cache Nat := (run (new 0 10) [(at_ 0, .set b!"a" 1), (at_ 5, .set b!"b" 2)]).1
    (get c (at_ 12) b!"a").2.2 = true ∧ count c = 2 := by decide

/-! ## C03 -/

/-- **C03** After a `Set(k,d)` that does not evict and a `SetTTL(k,t)`, a read is governed by exactly the three deadlines
counted from the instant of the Set. -/
theorem C03_deadlines (c : Cache D) (env env' : Env) (k : Str) (d : D) (t : Int) (hq : ¬ MayEvict c (.set k d)) :
    let c' := setTTL (set c env k d).1 k t
    let created := env.clk 0
    (get c' env' k).2 =
      if (t ≠ 0 ∧ created + t < env'.clk 0) ∨ (c.hasValidator = true ∧ env'.valid k created = false) ∨
         (c.expire ≠ 0 ∧ created + c.expire < env'.clk 1)
      then (none, true) else (some d, false) := by
  intro c' created
  have hg : c'.items.get k = some { ctime := env.clk 0, rtime := env.clk 1, ttl := t, data := d } := by
    simp only [c', setTTL_get, set_quiet hq, setRaw_get, if_true]
  have hcfg : c'.expire = c.expire ∧ c'.hasValidator = c.hasValidator := by
    simp only [c', (setTTL_config _ k t).1, (setTTL_config _ k t).2.1, (set_config c env k d).1, (set_config c env k d).2.1,
      and_self]
  rw [get_snd, hg]
  dsimp only
  have := invalid_iff_InvalidNow c' env' k { ctime := env.clk 0, rtime := env.clk 1, ttl := t, data := d }
  simp only [InvalidNow, deadlinePassed, hcfg.1, hcfg.2] at this
  by_cases hi : invalid c' env' k { ctime := env.clk 0, rtime := env.clk 1, ttl := t, data := d } = true
  · rw [if_pos hi]; exact (if_pos (this.1 hi)).symm
  · rw [if_neg hi]; exact (if_neg (fun x => hi (this.2 x))).symm

/-- **C03** A later `Set` restarts the creation time and clears the TTL. -/
theorem C03_set_restarts (c : Cache D) (env env' : Env) (k : Str) (d : D) (hq : ¬ MayEvict c (.set k d)) :
    let created := env.clk 0
    (get (set c env k d).1 env' k).2 =
      if (c.hasValidator = true ∧ env'.valid k created = false) ∨ (c.expire ≠ 0 ∧ created + c.expire < env'.clk 1)
      then (none, true) else (some d, false) := by
  intro created
  have hg : (set c env k d).1.items.get k = some { ctime := env.clk 0, rtime := env.clk 1, ttl := 0, data := d } := by
    simp only [set_quiet hq, setRaw_get, if_true]
  have hcfg := set_config c env k d
  rw [get_snd, hg]
  dsimp only
  have := invalid_iff_InvalidNow (set c env k d).1 env' k { ctime := env.clk 0, rtime := env.clk 1, ttl := 0, data := d }
  simp only [InvalidNow, deadlinePassed, hcfg.1, hcfg.2.1, ne_eq, not_true_eq_false, false_and, false_or] at this
  by_cases hi : invalid (set c env k d).1 env' k { ctime := env.clk 0, rtime := env.clk 1, ttl := 0, data := d } = true
  · rw [if_pos hi]; exact (if_pos (this.1 hi)).symm
  · rw [if_neg hi]; exact (if_neg (fun x => hi (this.2 x))).symm

/-- **C03** `SetTTL` does nothing for a missing key, and for a present one changes only the TTL of that entry. -/
theorem C03_setTTL_only_ttl (c : Cache D) (k : Str) (t : Int) :
    (c.items.get k = none → setTTL c k t = c) ∧
    (∀ k' e, c.items.get k' = some e →
      (setTTL c k t).items.get k' = some (if k' = k then { e with ttl := t } else e)) ∧
    (∀ k', c.items.get k' = none → (setTTL c k t).items.get k' = none) := by
  refine ⟨?_, ?_, ?_⟩
  · intro h; simp [setTTL, h]
  · intro k' e h; rw [setTTL_get, h]; dsimp only; split <;> rfl
  · intro k' h; rw [setTTL_get, h]

/-- Non-vacuity, and the boundary: served at creation+ttl, dropped one tick later; negative TTL drops at once. -/
example :
    let c : Cache Nat := new 0 0
    let c' := setTTL (set c (at_ 100) b!"k" 1).1 b!"k" 5
    ¬ MayEvict c (.set b!"k" 1) ∧ (get c' (at_ 105) b!"k").2 = (some 1, false) ∧
    (get c' (at_ 106) b!"k").2 = (none, true) ∧
    (get (setTTL c' b!"k" (-1)) (at_ 100) b!"k").2 = (none, true) := by
  refine ⟨?_, by decide, by decide, by decide⟩
  simp [MayEvict, new]

/-! ## C04 -/

/-- **C04 (partial)** In orderly histories without change of the limit, Count stays below `max(Maxitems, 10)`. Missing: the bound
`Maxitems` itself for Maxitems < 9, and any bound once a call found expired entries or Flush was called (all false, see below). -/
theorem C04_capacity_partial (m e : Int) (hm : 0 < m) (h : List (Env × Op D)) (ho : OrderlyRun (new m e) h)
    (hk : ∀ p ∈ h, KeepsLimit p.2) : (count (run (new m e) h).1 : Int) < max m 10 := by
  have := run_count_le (Lru.new (D := D) m e) h ho hk hm (by simp only [count, new, List.length_nil]; omega)
  simp only [new] at this
  have h2 : (count (run (new m e) h).1 : Int) ≤ max m 10 - 1 := this
  omega

/-- **C04 (partial)** In particular the documented limit holds for Maxitems ≥ 9 in those histories. -/
theorem C04_documented_limit_partial (m e : Int) (hm : 9 ≤ m) (h : List (Env × Op D)) (ho : OrderlyRun (new m e) h)
    (hk : ∀ p ∈ h, KeepsLimit p.2) : (count (run (new m e) h).1 : Int) ≤ m := by
  have := C04_capacity_partial m e (by omega) h ho hk
  omega

/-- **C04** In every history with percentages up to 100 and without change of the limit, whatever expires and however often `Flush` is
called: Count stays below `max(Maxitems, 10)` plus the number of entries that were found expired or were flushed. -/
theorem C04_capacity_and_dropped (m e : Int) (hm : 0 < m) (h : List (Env × Op D)) (hk : ∀ p ∈ h, KeepsLimit p.2 ∧ PercOk p.2) :
    (count (run (new m e) h).1 : Int) < max m 10 + (dropTotal (new m e) h : Int) := by
  have h0 : Surplus (new m e : Cache D) ((max m 10).toNat - 1) 0 :=
    ⟨Tracked.new m e, Nat.le_refl _, Nat.zero_le _⟩
  have h1 := Surplus.run hm h rfl h0 hk
  have h2 := h1.tracked.length_le
  have h3 := h1.bound
  simp only [count] at *
  omega

/-- Non-vacuity: ten entries flushed, then twelve more with the limit 10: two more entries than the limit allows, as keys of flushed
entries are evicted in place of entries. -/
example :
    let h : List (Env × Op Nat) := fill 0 0 9 ++ [(at_ 0, .flush)] ++ fill 0 20 12
    dropTotal (new 10 0) h = 9 ∧ count (run (new 10 0) h).1 = 12 := by decide +kernel

/-- Without expiration, every history without Flush and with percentages up to 100 is orderly. -/
theorem orderly_without_expire : ∀ (h : List (Env × Op D)) (c : Cache D), c.expire = 0 →
    (∀ p ∈ h, p.2 ≠ .flush ∧ (∀ e, p.2 ≠ .setExpire e) ∧ ∀ q, p.2 = .clean q → q ≤ 100) → OrderlyRun c h := by
  intro h
  induction h with
  | nil => intro c _ _; trivial
  | cons p h ih =>
    intro c hc hp
    obtain ⟨env, op⟩ := p
    obtain ⟨h1, h2, h3⟩ := hp (env, op) (by simp)
    have hd : ∀ a b : Int, ¬ deadlinePassed c.expire a b := fun a b => by simp [deadlinePassed, hc]
    have hrest : (step c env op).1.expire = 0 := by
      cases op with
      | set k d => simp only [step, (set_config c env k d).1, hc]
      | setTTL k t => simp only [step, (setTTL_config c k t).1, hc]
      | get k => simp only [step, (get_config c env k).1, hc]
      | clean p => simp only [step, clean, (mClean_config c env p).1, hc]
      | verify => simp only [step, (verify_config c env).1, hc]
      | setExpire e => exact absurd rfl (h2 e)
      | _ => exact hc
    refine ⟨?_, ih _ hrest fun p hp' => hp p (by simp [hp'])⟩
    cases op with
    | set k d => exact fun _ => ⟨hd _ _, fun _ _ _ _ => hd _ _⟩
    | clean p => exact ⟨h3 p rfl, fun _ _ _ => hd _ _⟩
    | verify => exact fun _ _ _ => hd _ _
    | flush => exact absurd rfl h1
    | _ => trivial

/-- **C04 is false for small limits**: with Maxitems = 3 nine entries are kept. -/
theorem C04_small_limit_counterexample :
    count (run (new 3 0 : Cache Nat) (fill 0 0 9)).1 = 9 := by decide

/-- **C04 is false after Flush**: with Maxitems = 10 any number of entries can be reached. -/
theorem C04_unbounded_after_flush (d : D) (B : Nat) :
    ∃ h : List (Env × Op D), count (run (new 10 0) h).1 = B := by
  refine ⟨stalePrefix d (B * B) ++ fill d 0 B, ?_⟩
  rw [run_append]
  have h1 := run_stalePrefix d (B * B) []
  simp only [List.nil_append] at h1
  rw [new, h1]
  have := run_fill d 0 (by omega) B 0 (B * B) [] [] rfl (by simp) (by simp) (by simp)
  simpa using this

/-- **C04 is false with expiration**: with Maxitems = 10 and Expire = 5 any number of entries can be reached without Flush, even
when the clock never goes back. -/
theorem C04_unbounded_with_expire (d : D) (B : Nat) :
    ∃ h : List (Env × Op D), (∀ p ∈ h, p.2 ≠ .flush) ∧
      (∃ ts : List Int, ts.Pairwise (· ≤ ·) ∧ h.map Prod.fst = ts.map at_) ∧ count (run (new 10 5) h).1 = B := by
  have hpre : ∀ n : Nat, (∀ p ∈ expiredPrefix d n, p.2 ≠ .flush) ∧ ∃ ts : List Int, ts.Pairwise (· ≤ ·) ∧
      (∀ t ∈ ts, -10 * (n : Int) ≤ t ∧ t ≤ 0) ∧ (expiredPrefix d n).map Prod.fst = ts.map at_ := by
    intro n
    induction n with
    | zero => exact ⟨by simp [expiredPrefix], [], by simp, by simp, rfl⟩
    | succ n ih =>
      obtain ⟨h1, ts, h2, h3, h4⟩ := ih
      refine ⟨?_, -10 * (n + 1) :: (-10 * (n + 1) + 9) :: ts, ?_, ?_, ?_⟩
      · intro p hp
        simp only [expiredPrefix, List.mem_cons] at hp
        rcases hp with rfl | rfl | hp
        · simp
        · simp
        · exact h1 p hp
      · rw [List.pairwise_cons, List.pairwise_cons]
        refine ⟨?_, ?_, h2⟩
        · intro t ht
          rcases List.mem_cons.1 ht with rfl | ht
          · omega
          · have := h3 t ht; omega
        · intro t ht
          have := h3 t ht; omega
      · intro t ht
        simp only [List.mem_cons] at ht
        rcases ht with rfl | rfl | ht
        · omega
        · omega
        · have := h3 t ht; omega
      · simp only [expiredPrefix, List.map_cons, h4]
        rfl
  have hfill : ∀ n i : Nat, (∀ p ∈ fill d i n, p.2 ≠ .flush) ∧ (fill d i n).map Prod.fst = (List.replicate n (0 : Int)).map at_ := by
    intro n
    induction n with
    | zero => intro i; exact ⟨by simp [fill], rfl⟩
    | succ n ih =>
      intro i
      refine ⟨?_, ?_⟩
      · intro p hp
        simp only [fill, List.mem_cons] at hp
        rcases hp with rfl | hp
        · simp
        · exact (ih _).1 p hp
      · simp only [fill, List.map_cons, (ih (i + 1)).2, List.replicate_succ]
        rfl
  obtain ⟨h1, ts, h2, h3, h4⟩ := hpre (B * B)
  refine ⟨expiredPrefix d (B * B) ++ fill d 0 B, ?_, ⟨ts ++ List.replicate B 0, ?_, ?_⟩, ?_⟩
  · intro p hp
    rcases List.mem_append.1 hp with hp | hp
    · exact h1 p hp
    · exact (hfill B 0).1 p hp
  · rw [List.pairwise_append]
    refine ⟨h2, ?_, ?_⟩
    · exact List.pairwise_replicate.2 (Or.inr (by omega))
    · intro a ha b hb
      rw [List.eq_of_mem_replicate hb]
      exact (h3 a ha).2
  · rw [List.map_append, List.map_append, h4, (hfill B 0).2]
  · rw [run_append]
    have h1 := run_expiredPrefix d (B * B) []
    simp only [List.nil_append] at h1
    rw [new, h1]
    have := run_fill d 5 (by omega) B 0 (B * B) [] [] rfl (by simp) (by simp) (by simp)
    simpa using this

/-- Non-vacuity: an orderly history of 12 Sets and a Get with Maxitems = 10 and Expire = 5 does trigger evictions. -/
example : let h := fill 0 0 12 ++ [(at_ 0, Op.get (akey 5))]
    OrderlyRun (new 10 5 : Cache Nat) h ∧ (∀ p ∈ h, KeepsLimit p.2) ∧ count (run (new 10 5 : Cache Nat) h).1 = 9 := by
  refine ⟨orderlyRun_of_check (by decide), ?_, by decide⟩
  intro p hp
  simp only [fill, List.cons_append, List.nil_append, List.mem_cons, List.not_mem_nil, or_false] at hp
  rcases hp with rfl | rfl | rfl | rfl | rfl | rfl | rfl | rfl | rfl | rfl | rfl | rfl | rfl <;> trivial

/-! ## C05 -/

/-- **C05 (partial)** After an orderly history, if nothing is expired, `Clean(p)` removes exactly `floor(n*p/100)` entries, each used
longer ago than every kept entry, and the kept entries are unchanged. Missing: histories that are not orderly (false, see below). -/
theorem C05_clean_is_lru_partial (m e : Int) (h : List (Env × Op D)) (ho : OrderlyRun (new m e) h) (env : Env) (p : Nat)
    (hp : p ≤ 100) :
    let c := (run (new m e) h).1
    let c' := (clean c env p).1
    let u := uses (trace (new m e) h)
    Fresh c env →
    count c' + count c * p / 100 = count c ∧
    (∀ k k', Present c k → ¬ Present c' k → Present c' k' → age u k' < age u k) ∧
    (∀ k e, c'.items.get k = some e → c.items.get k = some e) := by
  intro c c' u hf
  have hl : Lru c u := by
    have := (Lru.new (D := D) m e).run h ho
    simpa using this
  refine ⟨?_, ?_, ?_⟩
  · have := hl.mClean_length hf (p := p) (by omega)
    rw [cleanNum_nat] at this
    exact this
  · intro k k' h1 h2 h3
    exact hl.mClean_order hf p h1 h2 h3
  · intro k e he
    have he : (mClean c env p).1.items.get k = some e := he
    rw [hl.mClean_get hf] at he
    split at he
    · simp at he
    · exact he

/-- **C05 (partial)** In every history with percentages up to 100, whatever has expired or was flushed before: if `Clean` evicts an entry
that is not expired, and no entry of this key was ever found expired or flushed, then it leaves no entry that was last used before it.
Missing: keys of which an entry was dropped earlier (false, see below). -/
theorem C05_never_dropped_keys_partial (m e : Int) (h : List (Env × Op D)) (hp : ∀ q ∈ h, PercOk q.2) (env : Env) (p : Int) (k k' : Str) :
    let c := (run (new m e) h).1
    let c' := (clean c env p).1
    let u := uses (trace (new m e) h)
    Present c k → Present c k' → age u k' < age u k → ¬ EverDropped (new m e) k' h → ¬ Expired c env k' →
    ¬ Present c' k' → ¬ Present c' k := by
  intro c c' u hk hk' ha hd he hg
  have h1 := (Ghost.new (D := D) m e).run h hp
  simp only [List.nil_append, false_or] at h1
  exact h1.mClean_lru env p hk hk' ha hd he hg

/-- **C05 (partial)** The same for the eviction by a `Set` that reaches the limit: the key that is set counts as the one used last. -/
theorem C05_set_never_dropped_keys_partial (m e : Int) (h : List (Env × Op D)) (hp : ∀ q ∈ h, PercOk q.2) (env : Env) (k0 : Str) (d : D)
    (k k' : Str) :
    let c := (run (new m e) h).1
    let c' := (step c env (.set k0 d)).1
    let u := uses (trace (new m e) h) ++ [k0]
    (k = k0 ∨ Present c k) → (k' = k0 ∨ Present c k') → age u k' < age u k → ¬ EverDropped (new m e) k' h →
    ¬ Drops c env k' (.set k0 d) → ¬ Present c' k' → ¬ Present c' k := by
  intro c c' u hk hk' ha hd he hg
  have h1 := (Ghost.new (D := D) m e).run h hp
  simp only [List.nil_append, false_or] at h1
  have h2 := h1.setRaw env k0 d
  have hc' : c' = (set c env k0 d).1 := rfl
  rw [hc', set_eq] at hg ⊢
  split at hg
  · rename_i hcond
    rw [if_pos hcond]
    rw [setRaw_length] at hcond
    refine h2.mClean_lru env 10 (present_setRaw.2 hk) (present_setRaw.2 hk') ha hd ?_ hg
    intro hx
    exact he ⟨hcond, expired_setRaw.1 hx⟩
  · exact absurd (present_setRaw.2 hk') hg

/-- Non-vacuity: `x` is found expired, so its key stays in the way; `Clean(75)` with the entries a, b, c, d then evicts a and b only, and
no entry of a or b was dropped before. -/
example :
    let h : List (Env × Op Nat) := [(at_ 0, .set b!"x" 0), (at_ 9, .clean 0), (at_ 9, .set b!"a" 1), (at_ 9, .set b!"b" 2),
      (at_ 9, .set b!"c" 3), (at_ 9, .set b!"d" 4)]
    let c := (run (new 0 5) h).1
    EverDropped (new 0 5) b!"x" h ∧ ¬ EverDropped (new 0 5) b!"b" h ∧ ¬ Expired c (at_ 9) b!"b" ∧
      age (uses (trace (new 0 5) h)) b!"b" < age (uses (trace (new 0 5) h)) b!"a" ∧
      (clean c (at_ 9) 75).1.items.keys = [b!"c", b!"d"] := by
  refine ⟨Or.inr (Or.inl ⟨_, rfl, by decide⟩), ?_, ?_, by decide, by decide⟩
  · rintro (h | h | h | h | h | h | h)
    · exact absurd h.1.1 (by decide)
    · obtain ⟨e, h1, _⟩ := h; simp [step, set, new, AMap.get, AMap.set] at h1
    · exact absurd h.1.1 (by decide)
    · exact absurd h.1.1 (by decide)
    · exact absurd h.1.1 (by decide)
    · exact absurd h.1.1 (by decide)
    · exact h
  · rintro ⟨e, h1, h2⟩
    have h3 : e = ⟨9, 9, 0, 2⟩ := by
      have : AMap.get (run (new 0 5) _).1.items b!"b" = some (⟨9, 9, 0, 2⟩ : Entry Nat) := (by decide :
        ((run (new 0 5 : Cache Nat) [(at_ 0, .set b!"x" 0), (at_ 9, .clean 0), (at_ 9, .set b!"a" 1), (at_ 9, .set b!"b" 2),
          (at_ 9, .set b!"c" 3), (at_ 9, .set b!"d" 4)]).1.items.get b!"b") = some ⟨9, 9, 0, 2⟩)
      exact Option.some.inj (h1.symm.trans this)
    subst h3
    exact absurd h2 (by decide)

/-- **C05 (partial)** After an orderly history, with expired entries or not: `Clean(p)` keeps exactly the entries that are not expired and
are not among the `n` least recently used of all entries, the expired ones included, where `n` is `p` percent of those not expired. -/
theorem C05_clean_with_expired_partial (m e : Int) (h : List (Env × Op D)) (ho : OrderlyRun (new m e) h) (env : Env) (p : Nat) :
    let c := (run (new m e) h).1
    let c' := (clean c env p).1
    let u := uses (trace (new m e) h)
    let n := count (clean c env 0).1 * p / 100
    ∀ k x, c'.items.get k = some x ↔
      c.items.get k = some x ∧ ¬ deadlinePassed c.expire x.ctime (env.clkAt k) ∧ n ≤ older c u k := by
  intro c c' u n k x
  have hl : Lru c u := by
    have := (Lru.new (D := D) m e).run h ho
    simpa using this
  have hn : (cleanNum (sweep c.expire env c.items).length p).toNat = n := by
    rw [cleanNum_nat]
    have : (mClean c env 0).1.items = sweep c.expire env c.items := by
      rw [mClean_items, cleanNum_nonpos (Int.le_refl 0)]; rfl
    simp only [n, clean, count, this]
  have hg := mClean_get hl.nodup env p k
  rw [hn] at hg
  change (mClean c env p).1.items.get k = some x ↔ _
  rw [hg]
  cases hk : c.items.get k with
  | none => simp
  | some y =>
    have hm := hl.mem_take ⟨y, hk⟩ n
    by_cases ht : k ∈ c.pile.take n
    · have := hm.1 ht
      rw [if_pos ht]
      simp only [reduceCtorEq, false_iff]
      rintro ⟨_, _, h3⟩
      omega
    · have hle : n ≤ older c u k := by
        have := mt hm.2 ht
        omega
      rw [if_neg ht]
      dsimp only
      by_cases hd : deadlinePassed c.expire y.ctime (env.clkAt k)
      · rw [if_pos hd]
        simp only [reduceCtorEq, false_iff]
        rintro ⟨h1, h2, _⟩
        cases h1
        exact h2 hd
      · rw [if_neg hd]
        constructor
        · intro h1
          cases h1
          exact ⟨rfl, hd, hle⟩
        · exact fun h1 => h1.1

/-- **C05 (partial)** The automatic clean of an orderly `Set(k,d)`: when the limit is reached, 10% (rounded down) of the entries including
the new one are removed, oldest use first, the new key being the most recently used; otherwise nothing is removed. -/
theorem C05_set_evicts_lru_partial (m e : Int) (h : List (Env × Op D)) (ho : OrderlyRun (new m e) h) (env : Env) (k : Str)
    (d : D) :
    let c := (run (new m e) h).1
    let c' := (set c env k d).1
    let u := uses (trace (new m e) h) ++ [k]
    let n := countWith c k
    Orderly c env (.set k d) →
    count c' = n - (if 0 < c.maxitems ∧ c.maxitems ≤ n then n / 10 else 0) ∧
    (∀ k1 k2, (Present c k1 ∨ k1 = k) → ¬ Present c' k1 → Present c' k2 → age u k2 < age u k1) ∧
    (∀ k1 e, k1 ≠ k → c'.items.get k1 = some e → c.items.get k1 = some e) := by
  intro c c' u n hset
  have hl0 : Lru c (uses (trace (new m e) h)) := by
    have := (Lru.new (D := D) m e).run h ho
    simpa using this
  have hl := hl0.setRaw env k d
  have hlen : (setRaw c env k d).items.length = n := setRaw_length c env k d
  have hpres : ∀ k1, (Present c k1 ∨ k1 = k) → Present (setRaw c env k d) k1 := by
    intro k1 hk1
    unfold Present
    rw [setRaw_get]
    by_cases hkk : k1 = k
    · simp [hkk]
    · simp only [hkk, if_false]; exact hk1.resolve_right hkk
  have hget : ∀ k1 e, k1 ≠ k → (setRaw c env k d).items.get k1 = some e → c.items.get k1 = some e := by
    intro k1 e hne he
    rw [setRaw_get, if_neg hne] at he; exact he
  have hc' : c' = if 0 < c.maxitems ∧ c.maxitems ≤ (n : Int) then (mClean (setRaw c env k d) env 10).1 else setRaw c env k d := by
    simp only [c', set_eq, hlen]; split <;> rfl
  by_cases hcond : 0 < c.maxitems ∧ c.maxitems ≤ (n : Int)
  · have hf : Fresh (setRaw c env k d) env := fresh_setRaw (hset hcond).1 (hset hcond).2
    rw [if_pos hcond] at hc' ⊢
    refine ⟨?_, ?_, ?_⟩
    · have := hl.mClean_length hf (p := 10) (by omega)
      rw [cleanNum_ten, hlen] at this
      rw [hc']; unfold count; omega
    · intro k1 k2 h1 h2 h3
      rw [hc'] at h2 h3
      exact hl.mClean_order hf 10 (hpres k1 h1) h2 h3
    · intro k1 e hne he
      rw [hc', hl.mClean_get hf] at he
      split at he
      · simp at he
      · exact hget k1 e hne he
  · rw [if_neg hcond] at hc' ⊢
    refine ⟨?_, ?_, ?_⟩
    · rw [hc', count, hlen]; omega
    · intro k1 k2 h1 h2 h3
      rw [hc'] at h2
      exact absurd (hpres k1 h1) h2
    · intro k1 e hne he
      rw [hc'] at he; exact hget k1 e hne he

/-- **C05 is false with expiration**: `a` expired and was cleaned, then `b` and `a` were set; Clean(50) evicts `a`, the most
recently used key, and keeps `b`. -/
theorem C05_expire_counterexample :
    let h : List (Env × Op Nat) :=
      [(at_ 0, .set b!"a" 1), (at_ 10, .clean 0), (at_ 10, .set b!"b" 2), (at_ 10, .set b!"a" 3), (at_ 10, .clean 50)]
    let c := (run (new 0 5) h).1
    (c.items.get b!"a").isNone ∧ (c.items.get b!"b").isSome := by decide

/-- Non-vacuity: Set a, b, c, Get a, then Clean(50): the history is orderly, nothing is expired, and b (oldest use) goes. With the clock
at 7, a and b are expired; Clean(100) then removes these two only, because one entry is left and one, the oldest, is removed. -/
example :
    let h : List (Env × Op Nat) := [(at_ 0, .set b!"a" 1), (at_ 1, .set b!"b" 2), (at_ 2, .set b!"c" 3), (at_ 3, .get b!"a")]
    let c := (run (new 0 5) h).1
    OrderlyRun (new 0 5) h ∧ Fresh c (at_ 4) ∧ uses (trace (new 0 5) h) = [b!"a", b!"b", b!"c", b!"a"] ∧
    ((clean c (at_ 4) 50).1.items.get b!"b").isNone ∧ count (clean c (at_ 4) 50).1 = 2 ∧
    ((clean c (at_ 7) 100).1.items.get b!"c").isSome ∧ count (clean c (at_ 7) 100).1 = 1 := by
  refine ⟨orderlyRun_of_check (by decide), fresh_of_check (by decide), by decide, by decide, by decide, by decide, by decide⟩

/-! ## C06 -/

/-- **C06** In every history whatsoever, the only call that can panic is a `Clean` with a percentage above 100. -/
theorem C06_clean_never_panics (m e : Int) (h : List (Env × Op D)) (op : Op D) (o : Out D)
    (hmem : (op, o) ∈ trace (new m e) h) (hpan : o = .panicked) : ∃ p, op = .clean p ∧ 100 < p := by
  have gen : ∀ (hist : List (Env × Op D)) (c : Cache D), Tracked c → ∀ op o, (op, o) ∈ trace c hist → o = .panicked →
      ∃ p, op = .clean p ∧ 100 < p := by
    intro hist
    induction hist with
    | nil => intro c _ op o hm _; simp [trace] at hm
    | cons q hist ih =>
      intro c hc op o hm ho
      obtain ⟨env, op1⟩ := q
      rw [trace_cons] at hm
      simp only [List.mem_cons, Prod.mk.injEq] at hm
      rcases hm with ⟨h1, h2⟩ | hm
      · subst h1
        exact step_panicked hc env op (by rw [← h2]; exact ho)
      · exact ih _ (hc.step env op1) op o hm ho
  exact gen h _ (Tracked.new m e) op o hmem hpan

/-- **C06** A larger percentage does panic: Clean(200) on a cache holding one entry. -/
theorem C06_large_percentage_panics :
    (run (new 0 0 : Cache Nat) [(at_ 0, .set b!"a" 1), (at_ 0, .clean 200)]).2 = [.unit, .panicked] := by decide

/-- Non-vacuity: a history with Flush, expiry, and stale keys. -/
example : trace (new 1 5 : Cache Nat) [(at_ 0, .set b!"a" 1), (at_ 0, .flush), (at_ 9, .set b!"b" 1), (at_ 20, .clean 100)] =
    [(.set b!"a" 1, .unit), (.flush, .unit), (.set b!"b" 1, .unit), (.clean 100, .num 0)] := by decide

/-! ## C07 -/

/-- **C07 (partial)** After an orderly history, if nothing is expired, `Clean(p)` (0 ≤ p ≤ 100) returns the number of entries it
removed. Missing: expired entries, now or earlier (false, see below). -/
theorem C07_clean_count_partial (m e : Int) (h : List (Env × Op D)) (ho : OrderlyRun (new m e) h) (env : Env) (p : Nat)
    (hp : p ≤ 100) :
    let c := (run (new m e) h).1
    Fresh c env → (clean c env p).2 = some ((count c : Int) - count (clean c env p).1) := by
  intro c hf
  have hl : Lru c (uses (trace (new m e) h)) := by
    have := (Lru.new (D := D) m e).run h ho
    simpa using this
  have h1 := mClean_ok hl.tracked env (p := p) (by omega)
  rw [sweep_fresh hl.nodup hf] at h1
  have h2 := hl.mClean_length hf (p := p) (by omega)
  unfold clean
  rw [h1]
  congr 1
  unfold count
  omega

/-- **C07** What `Clean(p)` returns in every history: the percentage, rounded down, of the entries left by the removal of the
expired ones (`Clean(0)`), whatever was removed. -/
theorem C07_clean_returns_percentage (c : Cache D) (hc : Reachable c) (env : Env) (p : Nat) (hp : p ≤ 100) :
    (clean c env p).2 = some ((count (clean c env 0).1 * p / 100 : Nat) : Int) := by
  have ht : Tracked c := by obtain ⟨m, e, h, rfl⟩ := hc; exact (Tracked.new m e).run h
  unfold clean
  rw [mClean_ok ht env (p := p) (by omega), cleanNum_nat]
  congr 3
  unfold count
  have : (mClean c env 0).1.items = sweep c.expire env c.items := by
    rw [mClean_items, cleanNum_nonpos (Int.le_refl 0)]; rfl
  rw [this]

/-- **C07 is false with expiration**: Clean(0) removes the expired entry and reports 0. -/
theorem C07_expired_not_counted :
    let c : Cache Nat := (run (new 0 5) [(at_ 0, .set b!"a" 1)]).1
    count c = 1 ∧ count (clean c (at_ 10) 0).1 = 0 ∧ (clean c (at_ 10) 0).2 = some 0 := by decide

/-- Non-vacuity: Clean(50) on four entries returns 2. -/
example : (clean (run (new 0 0 : Cache Nat) (fill 0 0 4)).1 (at_ 0) 50).2 = some 2 := by decide

/-! ## C08 -/

/-- **C08** After `Clean(p)`, whatever p, no remaining entry had passed the Expire deadline when examined, and every remaining
entry is an unchanged old one. -/
theorem C08_clean_removes_expired (c : Cache D) (hc : Reachable c) (env : Env) (p : Int) (k : Str) (e : Entry D)
    (he : (clean c env p).1.items.get k = some e) :
    c.items.get k = some e ∧ ¬ (c.expire ≠ 0 ∧ e.ctime + c.expire < env.clkAt k) := by
  unfold clean at he
  rw [mClean_get (reachable_nodup hc)] at he
  split at he
  · simp at he
  · cases h : c.items.get k with
    | none => simp [h] at he
    | some e' =>
      rw [h] at he
      dsimp only at he
      split at he
      · simp at he
      · simp only [Option.some.injEq] at he; subst he; exact ⟨rfl, by assumption⟩

/-- **C08** `Clean(0)` keeps every unexpired entry untouched. -/
theorem C08_clean_zero_keeps (c : Cache D) (hc : Reachable c) (env : Env) (k : Str) (e : Entry D)
    (he : c.items.get k = some e) (hv : ¬ (c.expire ≠ 0 ∧ e.ctime + c.expire < env.clkAt k)) :
    (clean c env 0).1.items.get k = some e := by
  unfold clean
  rw [mClean_get (reachable_nodup hc), cleanNum_nonpos (Int.le_refl 0), he]
  simp only [List.take_zero, List.not_mem_nil, if_false]
  exact if_neg hv

/-- Non-vacuity: one expired and one fresh entry. -/
example :
    let c : Cache Nat := (run (new 0 10) [(at_ 0, .set b!"a" 1), (at_ 5, .set b!"b" 2)]).1
    ((clean c (at_ 12) 0).1.items.get b!"a").isNone ∧ ((clean c (at_ 12) 0).1.items.get b!"b").isSome := by decide

/-! ## C09 -/

/-- **C09** `Verify` never panics and leaves exactly the entries that are unexpired and (if a Validator is set) accepted,
unchanged. -/
theorem C09_verify_keeps_exactly_valid (c : Cache D) (hc : Reachable c) (env : Env) (k : Str) (e : Entry D) :
    (verify c env).1.items.get k = some e ↔
      c.items.get k = some e ∧ ¬ (c.expire ≠ 0 ∧ e.ctime + c.expire < env.clkAt k) ∧
        (c.hasValidator = true → env.valid k e.ctime = true) := by
  rw [verify_get (reachable_nodup hc)]
  cases h : c.items.get k with
  | none => simp
  | some e' =>
    dsimp only
    split
    · rename_i hd
      simp only [Option.some.injEq]
      constructor
      · rintro rfl; exact ⟨rfl, hd.1, hd.2⟩
      · exact fun h => h.1
    · rename_i hd
      simp only [Option.some.injEq]
      constructor
      · intro h; cases h
      · rintro ⟨rfl, h1, h2⟩; exact absurd ⟨h1, h2⟩ hd

/-- **C09 (partial)** The number returned by `Verify` is the number of removed entries when Expire = 0. Missing: with Expire ≠ 0
the expired entries are not counted (see below). -/
theorem C09_verify_count_partial (c : Cache D) (hc : Reachable c) (he : c.expire = 0) (env : Env) :
    (verify c env).2 = some ((count c : Int) - count (verify c env).1) := by
  obtain ⟨r, h1, h2⟩ := verify_count (reachable_nodup hc) env
  rw [h1, h2]
  congr 3
  unfold count clean
  rw [mClean_items, cleanNum_nonpos (Int.le_refl 0), he, sweep_zero]
  rfl

/-- **C09** In general `Verify` returns the number of entries removed by the Validator only: those lost between `Clean(0)` and the
end. -/
theorem C09_verify_counts_refused (c : Cache D) (hc : Reachable c) (env : Env) :
    (verify c env).2 = some ((count (clean c env 0).1 : Int) - count (verify c env).1) := by
  obtain ⟨r, h1, h2⟩ := verify_count (reachable_nodup hc) env
  rw [h1, h2]

/-- **C09's count is false with expiration**: an expired entry is removed but 0 is returned. -/
theorem C09_expired_not_counted :
    let c : Cache Nat := (run (new 0 5) [(at_ 0, .set b!"a" 1)]).1
    count (verify c (at_ 10)).1 = 0 ∧ (verify c (at_ 10)).2 = some 0 := by decide

/-- Non-vacuity: a refusing validator and two entries. -/
example :
    let c : Cache Nat := (run (new 0 0) [(at_ 0, .set b!"a" 1), (at_ 5, .set b!"b" 2), (at_ 5, .setValidator true)]).1
    c.expire = 0 ∧ count (verify c (refuseAt 6)).1 = 0 ∧ (verify c (refuseAt 6)).2 = some 2 := by decide

/-! ## C10 -/

/-- **C10** After `Flush`, Count is 0 and every Get misses. -/
theorem C10_flush_empties (c : Cache D) (env : Env) (k : Str) :
    count (flush c) = 0 ∧ (get (flush c) env k).2 = (none, false) := ⟨rfl, rfl⟩

/-- **C10** Whatever happened before the Flush, later reads never see anything set before it: they agree with an ideal cache that
starts empty at the Flush, or miss. -/
theorem C10_nothing_survives_flush (m e : Int) (h h' : List (Env × Op D)) (env : Env) (k : Str) :
    let c := flush (run (new m e) h).1
    let s : Ideal D := ⟨c.expire, c.hasValidator, fun _ => none⟩
    (get (run c h').1 env k).2 = answer (after s h') env k ∨ (get (run c h').1 env k).2 = (none, false) := by
  intro c s
  have hsub : Sub c s := ⟨rfl, rfl, AMap.nodup_nil, fun k e he => by simp [c, flush] at he⟩
  rcases (hsub.run h').answer_or_miss env k with h1 | ⟨_, h1⟩
  · exact Or.inl h1
  · exact Or.inr h1

/-- **C10 (partial)** Whatever the state of the cache, as long as the calls made after the Flush evict nothing on a new cache with
the same configuration, the flushed cache gives the same answer to every one of those calls (Get, Count, Clean, Verify, ...) as that
new cache. Limits on the number of entries are allowed. Missing: evicting calls (false, see below). -/
theorem C10_flush_like_fresh_partial (c : Cache D) (h : List (Env × Op D))
    (hq : Quiet ({ new c.maxitems c.expire with hasValidator := c.hasValidator } : Cache D) h) :
    (run (flush c) h).2 = (run ({ new c.maxitems c.expire with hasValidator := c.hasValidator } : Cache D) h).2 := by
  have h1 : SameItems ({ new c.maxitems c.expire with hasValidator := c.hasValidator } : Cache D) (flush c) := ⟨rfl, rfl, rfl, rfl⟩
  exact (h1.run h hq).2.symm

/-- **C10 (partial)** Without a limit on the number of entries, calls that are no `Clean` with a positive percentage and set no such
limit are always of that kind: the flushed cache answers all of them like a new one. -/
theorem C10_flush_like_fresh_unlimited_partial (c : Cache D) (hm : c.maxitems ≤ 0) (h : List (Env × Op D))
    (hf : ∀ p ∈ h, CapacityFree p.2) :
    (run (flush c) h).2 = (run ({ new c.maxitems c.expire with hasValidator := c.hasValidator } : Cache D) h).2 :=
  C10_flush_like_fresh_partial c h
    (quiet_of_capacityFree (c := ({ new c.maxitems c.expire with hasValidator := c.hasValidator } : Cache D)) hm hf)

/-- **C10 is false with evictions**: `a` was set before the Flush; afterwards the same calls on the flushed and on a fresh cache
leave different keys (the flushed one evicts the recent `a` and keeps the old `b`). -/
theorem C10_flush_counterexample :
    let used : Cache Nat := flush (run (new 0 0) [(at_ 0, .set b!"a" 1)]).1
    let fresh : Cache Nat := new 0 0
    let h : List (Env × Op Nat) := [(at_ 1, .set b!"b" 2), (at_ 2, .set b!"a" 3), (at_ 3, .clean 50), (at_ 4, .get b!"a")]
    (run used h).2 = [.unit, .unit, .num 1, .got none false] ∧ (run fresh h).2 = [.unit, .unit, .num 1, .got (some 3) false] := by
  decide

/-- Non-vacuity of the partial theorems: a cache limited to four entries that has been used, and calls after the Flush that evict
nothing; an unlimited cache with history. -/
example : let c : Cache Nat := (run (new 4 0) [(at_ 0, .set b!"a" 1), (at_ 0, .set b!"b" 2)]).1
    Quiet ({ new c.maxitems c.expire with hasValidator := c.hasValidator } : Cache Nat)
      [(at_ 1, .set b!"b" 5), (at_ 2, .set b!"c" 6), (at_ 3, .get b!"b"), (at_ 4, .get b!"a"), (at_ 5, .count)] ∧
    (run (flush c) [(at_ 1, .set b!"b" 5), (at_ 2, .set b!"c" 6), (at_ 3, .get b!"b"), (at_ 4, .get b!"a"), (at_ 5, .count)]).2 =
      [.unit, .unit, .got (some 5) false, .got none false, .num 2] := by
  refine ⟨⟨?_, ?_, ?_, ?_, ?_, trivial⟩, ?_⟩
  all_goals first | decide | (simp only [MayEvict]; decide) | exact id
example : let c : Cache Nat := (run (new 0 0) [(at_ 0, .set b!"a" 1)]).1
    c.maxitems ≤ 0 ∧ count c = 1 := by decide

/-! ## C11 -/

/-- **C11** `Del(k)`, `SetTTL(k,_)`, `Get(k)` and a non-evicting `Set(k,_)` leave the entry of every other key (data, creation time,
TTL, or its absence) as it was. -/
theorem C11_key_isolation (c : Cache D) (env : Env) (k k' : Str) (hne : k' ≠ k) :
    (del c k).items.get k' = c.items.get k' ∧
    (∀ t, (setTTL c k t).items.get k' = c.items.get k') ∧
    (get c env k).1.items.get k' = c.items.get k' ∧
    (∀ d, ¬ MayEvict c (.set k d) → (set c env k d).1.items.get k' = c.items.get k') := by
  refine ⟨?_, ?_, ?_, ?_⟩
  · simp [del, AMap.get_del, hne]
  · intro t; rw [setTTL_get]; cases c.items.get k' <;> simp [hne]
  · rw [get_items]; cases c.items.get k' <;> simp [hne]
  · intro d hq; rw [set_quiet hq, setRaw_get, if_neg hne]

/-- **C11** An evicting `Set(k,_)` can only remove other entries, never alter them. -/
theorem C11_set_never_alters (c : Cache D) (hc : Reachable c) (env : Env) (k k' : Str) (hne : k' ≠ k) (d : D) :
    (set c env k d).1.items.get k' = c.items.get k' ∨ (set c env k d).1.items.get k' = none := by
  rw [set_eq]
  split
  · rw [mClean_get (AMap.nodup_set (reachable_nodup hc) _ _)]
    split
    · exact Or.inr rfl
    · rw [setRaw_get, if_neg hne]
      cases c.items.get k' with
      | none => left; rfl
      | some e => dsimp only; split <;> simp
  · left; rw [setRaw_get, if_neg hne]

/-- Non-vacuity: two different keys, both present. -/
example :
    let c : Cache Nat := (run (new 0 0) [(at_ 0, .set b!"a" 1), (at_ 5, .set b!"b" 2)]).1
    (c.items.get b!"b").isSome ∧ ((del c b!"a").items.get b!"b").isSome ∧ b!"b" ≠ b!"a" := by decide

end Xcore.Cache
