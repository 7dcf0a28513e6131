import Verif.Proof.Cache

/-! # The concrete cache simulates the ideal one -/

namespace Xcore.Cache

open Spec

variable {D : Type}

/-- Everything the cache holds is what the ideal cache holds. -/
structure Sub (c : Cache D) (s : Ideal D) : Prop where
  expire : s.expire = c.expire
  validator : s.hasValidator = c.hasValidator
  nodup : c.items.Nodup
  sub : ∀ k e, c.items.get k = some e → s.tab k = some (toRec e)

theorem get_snd (c : Cache D) (env : Env) (k : Str) :
    (get c env k).2 = match c.items.get k with
      | some e => if invalid c env k e then (none, true) else (some e.data, false)
      | none => (none, false) := by
  unfold get
  cases c.items.get k with
  | none => rfl
  | some e => dsimp only; split <;> rfl

theorem get_items (c : Cache D) (env : Env) (k k' : Str) :
    (get c env k).1.items.get k' = match c.items.get k' with
      | some e => if k' = k then (if invalid c env k e then none else some { e with rtime := env.clk 2 }) else some e
      | none => none := by
  unfold get
  by_cases hk : k' = k
  · subst hk
    cases h : c.items.get k' with
    | none => simp [h]
    | some e =>
      dsimp only
      by_cases hi : invalid c env k' e = true
      · simp [hi, del, AMap.get_del]
      · simp [hi, AMap.get_set]
  · cases h : c.items.get k with
    | none => dsimp only; cases c.items.get k' <;> simp [hk]
    | some e =>
      dsimp only
      by_cases hi : invalid c env k e = true
      · simp only [hi, if_true, del, AMap.get_del, if_neg hk]
        cases c.items.get k' <;> simp
      · rw [if_neg hi]
        simp only [AMap.get_set, if_neg hk]
        cases c.items.get k' <;> rfl

theorem get_config (c : Cache D) (env : Env) (k : Str) :
    (get c env k).1.expire = c.expire ∧ (get c env k).1.hasValidator = c.hasValidator ∧
      (get c env k).1.maxitems = c.maxitems := by
  unfold get
  split
  · split <;> simp [del]
  · simp

theorem setRaw_get (c : Cache D) (env : Env) (k k' : Str) (d : D) :
    (setRaw c env k d).items.get k' =
      if k' = k then some { ctime := env.clk 0, rtime := env.clk 1, ttl := 0, data := d } else c.items.get k' := by
  simp [setRaw, AMap.get_set]

theorem set_config (c : Cache D) (env : Env) (k : Str) (d : D) :
    (set c env k d).1.expire = c.expire ∧ (set c env k d).1.hasValidator = c.hasValidator ∧
      (set c env k d).1.maxitems = c.maxitems := by
  rw [set_eq]
  split
  · exact mClean_config _ _ _
  · simp [setRaw]

theorem setTTL_get (c : Cache D) (k k' : Str) (t : Int) :
    (setTTL c k t).items.get k' = match c.items.get k' with
      | some e => if k' = k then some { e with ttl := t } else some e
      | none => none := by
  unfold setTTL
  by_cases hk : k' = k
  · subst hk
    cases h : c.items.get k' with
    | none => simp [h]
    | some e => simp [AMap.get_set]
  · cases h : c.items.get k with
    | none => dsimp only; cases c.items.get k' <;> simp [hk]
    | some e => simp only [AMap.get_set, if_neg hk]; cases c.items.get k' <;> simp

theorem setTTL_config (c : Cache D) (k : Str) (t : Int) :
    (setTTL c k t).expire = c.expire ∧ (setTTL c k t).hasValidator = c.hasValidator ∧
      (setTTL c k t).maxitems = c.maxitems := by
  unfold setTTL; split <;> simp

theorem Sub.step {c : Cache D} {s : Ideal D} (h : Sub c s) (env : Env) (op : Op D) :
    Sub (step c env op).1 (next s env op) := by
  have hnd := step_nodup h.nodup env op
  cases op with
  | set k d =>
    refine ⟨?_, ?_, hnd, ?_⟩
    · simp [next, Cache.step, (set_config c env k d).1, h.expire]
    · simp [next, Cache.step, (set_config c env k d).2.1, h.validator]
    · have key : ∀ k' e, (setRaw c env k d).items.get k' = some e →
          (next s env (.set k d)).tab k' = some (toRec e) := by
        intro k' e he
        rw [setRaw_get] at he
        simp only [next, upd]
        by_cases hk : k' = k
        · simp only [hk, if_true, Option.some.injEq] at he ⊢; subst he; rfl
        · simp only [hk, if_false] at he ⊢; exact h.sub _ _ he
      intro k' e he
      simp only [Cache.step, set_eq] at he
      split at he
      · rw [mClean_get (AMap.nodup_set h.nodup _ _)] at he
        split at he
        · simp at he
        · split at he
          · rename_i e' he'
            split at he
            · simp at he
            · simp at he; subst he; exact key _ _ he'
          · simp at he
      · exact key _ _ he
  | setTTL k t =>
    refine ⟨?_, ?_, hnd, ?_⟩
    · simp [next, Cache.step, (setTTL_config c k t).1, h.expire]
    · simp [next, Cache.step, (setTTL_config c k t).2.1, h.validator]
    · intro k' e he
      simp only [Cache.step, setTTL_get] at he
      simp only [next, upd]
      cases hc : c.items.get k' with
      | none => simp [hc] at he
      | some e' =>
        rw [hc] at he; dsimp only at he
        have := h.sub _ _ hc
        by_cases hk : k' = k
        · subst hk; simp only [if_true, Option.some.injEq] at he; subst he; simp [this, toRec]
        · simp only [hk, if_false, Option.some.injEq] at he ⊢; subst he; exact this
  | get k =>
    refine ⟨?_, ?_, hnd, ?_⟩
    · simp [next, Cache.step, (get_config c env k).1, h.expire]
    · simp [next, Cache.step, (get_config c env k).2.1, h.validator]
    · intro k' e he
      simp only [Cache.step, get_items] at he
      simp only [next, keep]
      cases hc : c.items.get k' with
      | none => simp [hc] at he
      | some e' =>
        rw [hc] at he; dsimp only at he
        rw [h.sub _ _ hc]
        dsimp only
        by_cases hk : k' = k
        · subst hk
          have hb := invalid_iff_Bad c env k' e' s h.expire h.validator
          simp only [if_true] at he
          split at he
          · simp at he
          · rename_i hi
            simp only [Option.some.injEq] at he
            have : ¬ Bad s env k' (toRec e') := fun hbad => hi (hb.2 hbad)
            simp [this]; subst he; rfl
        · simp only [hk, if_false, Option.some.injEq] at he
          subst he; simp [hk]
  | del k =>
    refine ⟨h.expire, h.validator, hnd, ?_⟩
    intro k' e he
    simp only [Cache.step, del, AMap.get_del] at he
    simp only [next, upd]
    split at he
    · simp at he
    · rename_i hk; simp only [hk, if_false]; exact h.sub _ _ he
  | count => exact h
  | clean p =>
    refine ⟨?_, ?_, hnd, ?_⟩
    · simp [next, Cache.step, clean, (mClean_config c env p).1, h.expire]
    · simp [next, Cache.step, clean, (mClean_config c env p).2.1, h.validator]
    · intro k' e he
      simp only [Cache.step, clean] at he
      rw [mClean_get h.nodup] at he
      simp only [next, keep]
      split at he
      · simp at he
      · cases hc : c.items.get k' with
        | none => simp [hc] at he
        | some e' =>
          rw [hc] at he; dsimp only at he
          rw [h.sub _ _ hc]
          split at he
          · simp at he
          · rename_i hd
            simp only [Option.some.injEq] at he; subst he
            dsimp only
            rw [h.expire]; exact if_pos hd
  | verify =>
    refine ⟨?_, ?_, hnd, ?_⟩
    · simp [next, Cache.step, (verify_config c env).1, h.expire]
    · simp [next, Cache.step, (verify_config c env).2.1, h.validator]
    · intro k' e he
      simp only [Cache.step] at he
      rw [verify_get h.nodup] at he
      simp only [next, keep]
      cases hc : c.items.get k' with
      | none => simp [hc] at he
      | some e' =>
        rw [hc] at he; dsimp only at he
        rw [h.sub _ _ hc]
        split at he
        · rename_i hd
          simp only [Option.some.injEq] at he; subst he
          dsimp only
          rw [h.expire, h.validator]; exact if_pos hd
        · simp at he
  | flush => refine ⟨h.expire, h.validator, hnd, ?_⟩; intro k' e he; simp [Cache.step, flush] at he
  | setMaxitems m => exact ⟨h.expire, h.validator, h.nodup, h.sub⟩
  | setExpire e => exact ⟨rfl, h.validator, h.nodup, h.sub⟩
  | setValidator b => exact ⟨h.expire, rfl, h.nodup, h.sub⟩

theorem Sub.run {c : Cache D} {s : Ideal D} (h : Sub c s) (hist : List (Env × Op D)) :
    Sub (run c hist).1 (after s hist) := by
  induction hist generalizing c s with
  | nil => exact h
  | cons p hist ih => obtain ⟨env, op⟩ := p; exact ih (h.step env op)

theorem Sub.new (m e : Int) : Sub (new m e : Cache D) (Ideal.empty e) :=
  ⟨rfl, rfl, AMap.nodup_nil, fun k e h => by simp [Cache.new] at h⟩

theorem Sub.answer_or_miss {c : Cache D} {s : Ideal D} (h : Sub c s) (env : Env) (k : Str) :
    (get c env k).2 = answer s env k ∨ (c.items.get k = none ∧ (get c env k).2 = (none, false)) := by
  rw [get_snd]
  cases hc : c.items.get k with
  | none => right; simp
  | some e =>
    left
    unfold answer
    rw [h.sub _ _ hc]
    dsimp only
    have hb := invalid_iff_Bad c env k e s h.expire h.validator
    by_cases hi : invalid c env k e = true
    · rw [if_pos hi]; exact (if_pos (hb.1 hi)).symm
    · rw [if_neg hi]; exact (if_neg (fun x => hi (hb.2 x))).symm

/-- The cache holds exactly what the ideal cache holds. -/
structure Same (c : Cache D) (s : Ideal D) : Prop extends Sub c s where
  sup : ∀ k, c.items.get k = none → s.tab k = none

theorem Same.new (m e : Int) : Same (new m e : Cache D) (Ideal.empty e) := ⟨Sub.new m e, fun _ _ => rfl⟩

theorem setRaw_length (c : Cache D) (env : Env) (k : Str) (d : D) : (setRaw c env k d).items.length = countWith c k := by
  have := AMap.mem_keys_iff c.items k
  simp only [setRaw, AMap.length_set, countWith, count]
  cases hc : c.items.get k <;> simp_all

theorem set_quiet {c : Cache D} {k : Str} {d : D} (h : ¬ MayEvict c (.set k d)) (env : Env) :
    set c env k d = (setRaw c env k d, true) := by
  rw [set_eq, if_neg]
  rw [setRaw_length]; exact h

theorem Same.step {c : Cache D} {s : Ideal D} (h : Same c s) (env : Env) (op : Op D) (hq : ¬ MayEvict c op) :
    Same (step c env op).1 (next s env op) := by
  refine ⟨h.toSub.step env op, ?_⟩
  intro k' hk'
  cases op with
  | set k d =>
    simp only [Cache.step, set_quiet hq, setRaw_get] at hk'
    simp only [next, upd]
    split at hk'
    · simp at hk'
    · rename_i hne; simp only [hne, if_false]; exact h.sup _ hk'
  | setTTL k t =>
    simp only [Cache.step, setTTL_get] at hk'
    simp only [next, upd]
    cases hc : c.items.get k' with
    | none =>
      have := h.sup _ hc
      by_cases hk : k' = k
      · subst hk; simp [this]
      · simp [hk, this]
    | some e => rw [hc] at hk'; dsimp only at hk'; split at hk' <;> simp at hk'
  | get k =>
    simp only [Cache.step, get_items] at hk'
    simp only [next, keep]
    cases hc : c.items.get k' with
    | none => simp [h.sup _ hc]
    | some e =>
      rw [hc] at hk'; dsimp only at hk'
      rw [h.sub _ _ hc]; dsimp only
      split at hk'
      · rename_i hk
        subst hk
        split at hk'
        · rename_i hi
          have := (invalid_iff_Bad c env k' e s h.expire h.validator).1 hi
          rw [if_neg]; intro hn; exact hn ⟨rfl, this⟩
        · simp at hk'
      · simp at hk'
  | del k =>
    simp only [Cache.step, del, AMap.get_del] at hk'
    simp only [next, upd]
    split
    · rfl
    · rename_i hne; simp only [hne, if_false] at hk'; exact h.sup _ hk'
  | count => exact h.sup _ hk'
  | clean p =>
    simp only [Cache.step, clean] at hk'
    have hp : p ≤ 0 := by simp only [MayEvict] at hq; omega
    rw [mClean_get h.nodup, cleanNum_nonpos hp] at hk'
    simp only [List.take_zero, List.not_mem_nil, if_false] at hk'
    simp only [next, keep]
    cases hc : c.items.get k' with
    | none => simp [h.sup _ hc]
    | some e =>
      rw [hc] at hk'; dsimp only at hk'
      rw [h.sub _ _ hc]; dsimp only
      split at hk'
      · rename_i hd
        rw [h.expire, if_neg]; simpa [toRec] using hd
      · simp at hk'
  | verify =>
    simp only [Cache.step] at hk'
    rw [verify_get h.nodup] at hk'
    simp only [next, keep]
    cases hc : c.items.get k' with
    | none => simp [h.sup _ hc]
    | some e =>
      rw [hc] at hk'; dsimp only at hk'
      rw [h.sub _ _ hc]; dsimp only
      split at hk'
      · simp at hk'
      · rename_i hd
        rw [h.expire, h.validator, if_neg]; exact hd
  | flush => rfl
  | setMaxitems m => exact h.sup _ hk'
  | setExpire e => exact h.sup _ hk'
  | setValidator b => exact h.sup _ hk'

theorem Same.run {c : Cache D} {s : Ideal D} (h : Same c s) (hist : List (Env × Op D)) (hq : Quiet c hist) :
    Same (run c hist).1 (after s hist) := by
  induction hist generalizing c s with
  | nil => exact h
  | cons p hist ih => obtain ⟨env, op⟩ := p; exact ih (h.step env op hq.1) hq.2

theorem Same.answer {c : Cache D} {s : Ideal D} (h : Same c s) (env : Env) (k : Str) :
    (get c env k).2 = answer s env k := by
  rcases h.toSub.answer_or_miss env k with h1 | ⟨h1, h2⟩
  · exact h1
  · rw [h2]; simp [Spec.answer, h.sup _ h1]

theorem step_maxitems {c : Cache D} (env : Env) (op : Op D) (hf : CapacityFree op) (hm : c.maxitems ≤ 0) :
    (step c env op).1.maxitems ≤ 0 := by
  cases op with
  | set k d => simp only [step, (set_config c env k d).2.2]; exact hm
  | setTTL k t => simp only [step, (setTTL_config c k t).2.2]; exact hm
  | get k => simp only [step, (get_config c env k).2.2]; exact hm
  | del k => exact hm
  | count => exact hm
  | clean p => simp only [step, clean, (mClean_config c env p).2.2]; exact hm
  | verify => simp only [step, (verify_config c env).2.2]; exact hm
  | flush => exact hm
  | setMaxitems m => exact hf
  | setExpire e => exact hm
  | setValidator b => exact hm

theorem quiet_of_capacityFree {c : Cache D} (hm : c.maxitems ≤ 0) :
    ∀ {hist : List (Env × Op D)}, (∀ p ∈ hist, CapacityFree p.2) → Quiet c hist := by
  intro hist
  induction hist generalizing c with
  | nil => intro _; trivial
  | cons p hist ih =>
    intro hf
    obtain ⟨env, op⟩ := p
    have h1 := hf (env, op) (by simp)
    refine ⟨?_, ih (step_maxitems env op h1 hm) (fun p hp => hf p (by simp [hp]))⟩
    cases op <;> simp only [MayEvict, CapacityFree, not_false_eq_true, not_and] at h1 ⊢ <;> omega

theorem reachable_nodup {c : Cache D} (h : Reachable c) : c.items.Nodup := by
  obtain ⟨m, e, hist, rfl⟩ := h
  exact ((Sub.new m e).run hist).nodup

end Xcore.Cache
