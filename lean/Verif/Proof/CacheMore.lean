import Verif.Proof.CacheLru

/-! # Counting lemmas, and the histories defeating the capacity limit -/

namespace Xcore.Cache

open Spec

variable {D : Type}

theorem cleanNum_ten (n : Nat) : (cleanNum n 10).toNat = n / 10 := by
  unfold cleanNum
  rw [Int.tdiv_eq_ediv_of_nonneg (by omega)]
  omega

theorem cleanNum_nat (n p : Nat) : (cleanNum n p).toNat = n * p / 100 := by
  unfold cleanNum
  rw [Int.tdiv_eq_ediv_of_nonneg (by exact Int.mul_nonneg (by omega) (by omega))]
  norm_cast

theorem length_eq_of_keys {V W : Type} {m : AMap V} {m' : AMap W} (h : m.Nodup) (h' : m'.Nodup)
    (hk : ∀ k, k ∈ m.keys ↔ k ∈ m'.keys) : m.length = m'.length := by
  have := (nodup_perm h h' hk).length_eq
  simpa using this

theorem step_count_le {c : Cache D} {u : List Str} (h : Lru c u) (env : Env) (op : Op D) (hr : Orderly c env op) (hl : KeepsLimit op) (m : Int)
    (hm : c.maxitems = m) (hpos : 0 < m) (hb : (count c : Int) ≤ max m 10 - 1) :
    (count (step c env op).1 : Int) ≤ max m 10 - 1 := by
  have key : ∀ c' : Cache D, c'.items.Nodup → (∀ k, c.items.get k = none → c'.items.get k = none) →
      (count c' : Int) ≤ max m 10 - 1 := by
    intro c' hn hs
    have : c'.items.length ≤ c.items.length := by
      have := nodup_length_le (l := c'.items.keys) (m := c.items.keys) hn
        (fun k hk => mem_keys_of_get_imp k (hs k) hk)
      simpa using this
    unfold count at *; omega
  cases op with
  | set k d =>
    have h1 := h.setRaw env k d
    have hl := setRaw_length c env k d
    have hfr : 0 < m ∧ m ≤ (countWith c k : Int) → Fresh (setRaw c env k d) env := by
      intro hc
      have hc' : MayEvict c (.set k d) := by rw [← hm] at hc; exact hc
      exact fresh_setRaw (hr hc').1 (hr hc').2
    have hcw : (countWith c k : Int) ≤ max m 10 := by
      unfold countWith; split <;> omega
    simp only [step, set_eq, count]
    rw [hm]
    split
    · rename_i hcond
      rw [hl] at hcond
      have h2 := h1.mClean_length (hfr hcond) (p := 10) (by omega)
      rw [cleanNum_ten] at h2
      dsimp only
      rw [hl] at h2
      omega
    · rename_i hcond
      rw [hl] at hcond
      dsimp only
      rw [hl]
      omega
  | setTTL k t => exact key _ (step_nodup h.nodup env (.setTTL k t)) (fun k' hk' => by simp [step, setTTL_get, hk'])
  | get k => exact key _ (step_nodup h.nodup env (.get k)) (fun k' hk' => by simp [step, get_items, hk'])
  | del k =>
    exact key _ (step_nodup h.nodup env (.del k)) (fun k' hk' => by simp [step, del, AMap.get_del, hk'])
  | count => exact hb
  | clean p =>
    exact key _ (step_nodup h.nodup env (.clean p)) (fun k' hk' => by simp [step, clean, mClean_get h.nodup, hk'])
  | verify =>
    exact key _ (step_nodup h.nodup env .verify) (fun k' hk' => by simp [step, verify_get h.nodup, hk'])
  | flush => simp only [step, flush, count, List.length_nil]; omega
  | setMaxitems m => exact absurd hl id
  | setExpire e => exact hb
  | setValidator b => exact hb

theorem step_maxitems_eq {c : Cache D} (env : Env) (op : Op D) (hr : KeepsLimit op) :
    (step c env op).1.maxitems = c.maxitems := by
  cases op with
  | set k d => simp only [step, (set_config c env k d).2.2]
  | setTTL k t => simp only [step, (setTTL_config c k t).2.2]
  | get k => simp only [step, (get_config c env k).2.2]
  | del k => rfl
  | count => rfl
  | clean p => simp only [step, clean, (mClean_config c env p).2.2]
  | verify => simp only [step, (verify_config c env).2.2]
  | flush => rfl
  | setMaxitems m => exact absurd hr id
  | setExpire e => rfl
  | setValidator b => rfl

theorem run_maxitems_eq : ∀ (hist : List (Env × Op D)) (c : Cache D), (∀ p ∈ hist, KeepsLimit p.2) →
    (run c hist).1.maxitems = c.maxitems := by
  intro hist
  induction hist with
  | nil => intro c _; rfl
  | cons p hist ih =>
    intro c hr
    obtain ⟨env, op⟩ := p
    exact (ih _ (fun p hp => hr p (by simp [hp]))).trans (step_maxitems_eq env op (hr (env, op) (by simp)))

theorem run_count_le {c : Cache D} {u : List Str} (h : Lru c u) (hist : List (Env × Op D))
    (hr : OrderlyRun c hist) (hk : ∀ p ∈ hist, KeepsLimit p.2) (hpos : 0 < c.maxitems) (hb : (count c : Int) ≤ max c.maxitems 10 - 1) :
    (count (run c hist).1 : Int) ≤ max c.maxitems 10 - 1 := by
  induction hist generalizing c u with
  | nil => exact hb
  | cons p hist ih =>
    obtain ⟨env, op⟩ := p
    have hreg := hk (env, op) (by simp)
    have hm := step_maxitems_eq (c := c) env op hreg
    have h1 := step_count_le h env op hr.1 hreg c.maxitems rfl hpos hb
    have := ih (h.step env op hr.1) hr.2 (fun p hp => hk p (by simp [hp])) (by rw [hm]; exact hpos) (by rw [hm]; exact h1)
    rw [hm] at this
    exact this

/-! ## Verify counts its deletions -/

theorem verifyLoop_count (env : Env) : ∀ (l : List (Str × Entry D)) (c : Cache D) (i : Int), c.items.Nodup →
    (l.map Prod.fst).Nodup → (∀ p ∈ l, p.1 ∈ c.items.keys) →
    (verifyLoop env l c i).2 - i = (count c : Int) - count (verifyLoop env l c i).1 := by
  intro l
  induction l with
  | nil => intro c i _ _ _; simp only [verifyLoop]; omega
  | cons p l ih =>
    intro c i hn hl hm
    obtain ⟨k, x⟩ := p
    simp only [List.map_cons, List.nodup_cons] at hl
    simp only [verifyLoop]
    split
    · have hk : k ∈ c.items.keys := hm (k, x) (by simp)
      have h1 := ih (del c k) (i + 1) (AMap.nodup_del hn k) hl.2 (by
        intro p hp
        simp only [del, AMap.mem_keys_del]
        refine ⟨?_, hm p (by simp [hp])⟩
        rintro rfl
        exact hl.1 (List.mem_map_of_mem hp))
      have h2 := AMap.length_del_of_mem hn hk
      simp only [count, del] at *
      omega
    · exact ih c i hn hl.2 (fun p hp => hm p (by simp [hp]))

theorem verify_count {c : Cache D} (h : c.items.Nodup) (env : Env) :
    ∃ r, (verify c env).2 = some r ∧ r = (count (clean c env 0).1 : Int) - count (verify c env).1 := by
  have h0 : (mClean c env 0).2 = some 0 := by
    simp only [mClean_snd, cleanNum_nonpos (Int.le_refl 0)]; simp
  have h2 : clean c env 0 = ((mClean c env 0).1, some 0) := by
    unfold clean; rw [← h0]
  have hv := verify_fst c env
  have hn := mClean_nodup h env 0
  unfold verify at hv ⊢
  rw [h2] at hv ⊢
  dsimp only at hv ⊢
  cases hval : (mClean c env 0).1.hasValidator with
  | true =>
    simp only [if_true]
    refine ⟨_, rfl, ?_⟩
    have := verifyLoop_count env (mClean c env 0).1.items (mClean c env 0).1 0 hn hn
      (fun p hp => List.mem_map_of_mem hp)
    simpa using this
  | false =>
    simp only [Bool.false_eq_true, if_false]
    exact ⟨0, rfl, by omega⟩

/-! ## Stale keys defeat the limit -/

theorem evictLoop_stale (n : Nat) : ∀ (M : Nat) (items : AMap (Entry D)) (k0 : Str) (P : List Str), n ≤ M →
    k0 ∉ items.keys → evictLoop n items (List.replicate M k0 ++ P) = (items, some (List.replicate (M - n) k0 ++ P)) := by
  induction n with
  | zero => intro M items k0 P _ _; simp [evictLoop]
  | succ n ih =>
    intro M items k0 P hM hk
    cases M with
    | zero => omega
    | succ M =>
      simp only [List.replicate_succ, List.cons_append, evictLoop]
      rw [AMap.del_of_not_mem hk, ih M items k0 P (by omega) hk]
      congr 4; omega

theorem mClean_stale {items : AMap (Entry D)} {k0 : Str} (m e : Int) (v : Bool) (M : Nat) (P : List Str) (env : Env)
    (hM : items.length / 10 ≤ M) (hk : k0 ∉ items.keys) (hf : sweep e env items = items) :
    mClean (⟨m, e, v, items, List.replicate M k0 ++ P⟩ : Cache D) env 10 =
      ((⟨m, e, v, items, List.replicate (M - items.length / 10) k0 ++ P⟩ : Cache D), some ((items.length / 10 : Nat) : Int)) := by
  simp only [mClean, hf, cleanNum_ten, evictLoop_stale _ M items k0 P hM hk]

/-- An environment where every clock reads 0 and every entry is accepted. -/
def env0 : Env := ⟨fun _ => 0, fun _ => 0, fun _ _ => true⟩

/-- The key made of `n` letters `a`. -/
def akey (n : Nat) : Str := List.replicate n 97

theorem akey_inj {a b : Nat} (h : akey a = akey b) : a = b := by
  have := congrArg List.length h
  simpa [akey] using this

/-- `n` times: Set the empty key, then Flush. -/
def stalePrefix (d : D) : Nat → List (Env × Op D)
  | 0 => []
  | n + 1 => (env0, .set [] d) :: (env0, .flush) :: stalePrefix d n

/-- An environment where every clock reads `t` and every entry is accepted. -/
def envAt (t : Int) : Env := ⟨fun _ => t, fun _ => t, fun _ _ => true⟩

/-- `n` times: Set the empty key, and `Clean(0)` nine ticks later. The last of these calls is at time -1. -/
def expiredPrefix (d : D) : Nat → List (Env × Op D)
  | 0 => []
  | n + 1 => (envAt (-10 * (n + 1)), .set [] d) :: (envAt (-10 * (n + 1) + 9), .clean 0) :: expiredPrefix d n

/-- Set `n` distinct keys `akey (i+1) … akey (i+n)`. -/
def fill (d : D) : Nat → Nat → List (Env × Op D)
  | _, 0 => []
  | i, n + 1 => (env0, .set (akey (i + 1)) d) :: fill d (i + 1) n

theorem run_append (c : Cache D) (h1 h2 : List (Env × Op D)) :
    (run c (h1 ++ h2)).1 = (run (run c h1).1 h2).1 := by
  induction h1 generalizing c with
  | nil => rfl
  | cons p h1 ih => obtain ⟨env, op⟩ := p; simp only [List.cons_append, run]; exact ih _

theorem run_stalePrefix (d : D) (n : Nat) : ∀ (P : List Str),
    (run (⟨10, 0, false, [], P⟩ : Cache D) (stalePrefix d n)).1 = ⟨10, 0, false, [], P ++ List.replicate n []⟩ := by
  induction n with
  | zero => intro P; simp [stalePrefix, run]
  | succ n ih =>
    intro P
    simp only [stalePrefix, run, step, set, AMap.get_nil, flush]
    have := ih (P ++ [[]])
    simp only [AMap.set]
    simp only [List.length_cons, List.length_nil, Option.isSome_none, Bool.false_eq_true, if_false]
    rw [if_neg (by omega)]
    rw [this]
    simp [List.replicate_succ]

theorem run_expiredPrefix (d : D) (n : Nat) : ∀ (P : List Str),
    (run (⟨10, 5, false, [], P⟩ : Cache D) (expiredPrefix d n)).1 = ⟨10, 5, false, [], P ++ List.replicate n []⟩ := by
  induction n with
  | zero => intro P; simp [expiredPrefix, run]
  | succ n ih =>
    intro P
    simp only [expiredPrefix, run, step, set, AMap.get_nil, AMap.set]
    simp only [List.length_cons, List.length_nil, Option.isSome_none, Bool.false_eq_true, if_false]
    rw [if_neg (by omega)]
    have h1 : sweep (D := D) 5 (envAt (-10 * (n + 1) + 9)) [([], ⟨-10 * (n + 1), -10 * (n + 1), 0, d⟩)] = [] := by
      simp [sweep, past, envAt]
    have h2 : (clean (⟨10, 5, false, [([], ⟨-10 * (n + 1), -10 * (n + 1), 0, d⟩)], P ++ [[]]⟩ : Cache D) (envAt (-10 * (n + 1) + 9)) 0).1 =
        ⟨10, 5, false, [], P ++ [[]]⟩ := by
      simp only [clean, mClean, h1, cleanNum_nonpos (Int.le_refl 0), evictLoop]
    have := ih (P ++ [[]])
    have h3 : (envAt (-10 * (n + 1))).clk 0 = -10 * (n + 1) ∧ (envAt (-10 * (n + 1))).clk 1 = -10 * (n + 1) := ⟨rfl, rfl⟩
    rw [h3.1, h3.2, h2, this]
    simp [List.replicate_succ]

theorem mem_set_cases {V : Type} {m : AMap V} {k : Str} {v : V} {p : Str × V} (h : p ∈ m.set k v) : p = (k, v) ∨ p ∈ m := by
  induction m with
  | nil => simp only [AMap.set, List.mem_singleton] at h; exact Or.inl h
  | cons q m ih =>
    simp only [AMap.set] at h
    split at h
    · rcases List.mem_cons.1 h with h | h
      · exact Or.inl h
      · exact Or.inr (by simp [h])
    · rcases List.mem_cons.1 h with h | h
      · exact Or.inr (by simp [h])
      · exact (ih h).imp id (fun h => by simp [h])

theorem run_fill (d : D) (e : Int) (he : 0 ≤ e) (n : Nat) : ∀ (i M : Nat) (items : AMap (Entry D)) (P : List Str),
    items.length = i → (∀ p ∈ items, p.2.ctime = 0) → (∀ k ∈ items.keys, ∃ j, 1 ≤ j ∧ j ≤ i ∧ k = akey j) → n * (i + n) ≤ M →
    count (run (⟨10, e, false, items, List.replicate M [] ++ P⟩ : Cache D) (fill d i n)).1 = i + n := by
  induction n with
  | zero => intro i M items P hl _ _ _; simp [fill, run, count, hl]
  | succ n ih =>
    intro i M items P hl hz hk hM
    have hnew : akey (i + 1) ∉ items.keys := by
      intro hmem
      obtain ⟨j, h1, h2, h3⟩ := hk _ hmem
      have := akey_inj h3; omega
    have hnone : items.get (akey (i + 1)) = none := (AMap.get_eq_none_iff _ _).2 hnew
    have hempty : ([] : Str) ∉ items.keys := by
      intro hmem
      obtain ⟨j, h1, h2, h3⟩ := hk _ hmem
      have : akey 0 = akey j := h3
      have := akey_inj this; omega
    let items' : AMap (Entry D) := items.set (akey (i + 1)) { ctime := 0, rtime := 0, ttl := 0, data := d }
    have hl' : items'.length = i + 1 := by
      simp only [items', AMap.length_set, hnew, if_false, hl]
    have hz' : ∀ p ∈ items', p.2.ctime = 0 := by
      intro p hp
      rcases mem_set_cases hp with rfl | hp
      · rfl
      · exact hz p hp
    have hsw : sweep e env0 items' = items' := by
      unfold sweep
      split
      · rw [List.filter_eq_self]
        intro p hp
        simp [past, hz' p hp, env0, he]
      · rfl
    have hempty' : ([] : Str) ∉ items'.keys := by
      simp only [items', AMap.mem_keys_set, not_or]
      refine ⟨?_, hempty⟩
      intro h
      have : akey 0 = akey (i + 1) := h
      have := akey_inj this; omega
    have hk' : ∀ k ∈ items'.keys, ∃ j, 1 ≤ j ∧ j ≤ i + 1 ∧ k = akey j := by
      intro k hmem
      simp only [items', AMap.mem_keys_set] at hmem
      rcases hmem with rfl | hmem
      · exact ⟨i + 1, by omega, by omega, rfl⟩
      · obtain ⟨j, h1, h2, h3⟩ := hk _ hmem; exact ⟨j, h1, by omega, h3⟩
    have hMn : (i + 1) / 10 ≤ M ∧ n * (i + 1 + n) ≤ M - (i + 1) / 10 := by
      have : (n + 1) * (i + (n + 1)) = n * (i + 1 + n) + (i + 1 + n) := by
        rw [Nat.add_mul, Nat.one_mul]; congr 1 <;> first | omega | (congr 1; omega)
      omega
    simp only [fill, run]
    have hstep : ∃ M', n * (i + 1 + n) ≤ M' ∧
        (step (⟨10, e, false, items, List.replicate M [] ++ P⟩ : Cache D) env0 (.set (akey (i + 1)) d)).1 =
          ⟨10, e, false, items', List.replicate M' [] ++ (P ++ [akey (i + 1)])⟩ := by
      simp only [step, set, hnone, Option.isSome_none, Bool.false_eq_true, if_false]
      by_cases hc : (0 : Int) < 10 ∧ (10 : Int) ≤ (items'.length : Int)
      · have hc' : (0 : Int) < 10 ∧ (10 : Int) ≤ ((items.set (akey (i + 1))
            { ctime := env0.clk 0, rtime := env0.clk 1, ttl := 0, data := d }).length : Int) := hc
        rw [if_pos hc']
        refine ⟨M - (i + 1) / 10, hMn.2, ?_⟩
        have he := mClean_stale (items := items') (k0 := []) 10 e false M (P ++ [akey (i + 1)]) env0
          (by rw [hl']; exact hMn.1) hempty' hsw
        rw [hl'] at he
        simp only [List.append_assoc]
        exact congrArg Prod.fst he
      · have hc' : ¬ ((0 : Int) < 10 ∧ (10 : Int) ≤ ((items.set (akey (i + 1))
            { ctime := env0.clk 0, rtime := env0.clk 1, ttl := 0, data := d }).length : Int)) := hc
        rw [if_neg hc']
        refine ⟨M, by omega, ?_⟩
        simp only [List.append_assoc]
        rfl
    obtain ⟨M', hM', hst⟩ := hstep
    have := ih (i + 1) M' items' (P ++ [akey (i + 1)]) hl' hz' hk' hM'
    rw [← hst] at this
    rw [this]; omega

end Xcore.Cache
