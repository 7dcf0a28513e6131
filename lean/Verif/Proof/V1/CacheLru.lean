import Verif.Proof.V1.Cache
import Verif.Proof.CacheGhost
import Verif.Spec.V1.CacheLru

/-! # The pile of the cache of version 1 in all histories -/

namespace Xcore.V1.Cache

open Xcore.Cache (Env Out Tracked Surplus Ghost)
open Xcore.Cache.Spec (deadlinePassed age)

variable {D : Type}

theorem present_up (c : Cache D) (k : Str) : Xcore.Cache.Spec.Present c.up k ↔ Present c k := by
  unfold Xcore.Cache.Spec.Present Present
  have : AMap.get c.up.items k = (AMap.get c.items k).map Entry.up := up_get _ _
  rw [this]
  cases AMap.get c.items k <;> simp

theorem count_up (c : Cache D) : Xcore.Cache.count c.up = count c := by simp [Xcore.Cache.count, count, Cache.up]

theorem countWith_up (c : Cache D) (k : Str) : Xcore.Cache.Spec.countWith c.up k = countWith c k := by
  unfold Xcore.Cache.Spec.countWith countWith
  have : AMap.get c.up.items k = (AMap.get c.items k).map Entry.up := up_get _ _
  rw [this, count_up]
  cases AMap.get c.items k <;> rfl

theorem expired_up (c : Cache D) (env : Env) (k : Str) : Xcore.Cache.Spec.Expired c.up env k ↔
    ∃ x, c.items.get k = some x ∧ deadlinePassed c.expire x.ctime (env.clkAt k) := by
  unfold Xcore.Cache.Spec.Expired
  have : AMap.get c.up.items k = (AMap.get c.items k).map Entry.up := up_get _ _
  rw [this]
  cases AMap.get c.items k with
  | none => simp
  | some x => simp [Entry.up, Cache.up]

theorem lost_up {c : Cache D} {env : Env} {k : Str} {op : Op D} (hv : op ≠ .verify) :
    Xcore.Cache.Spec.Drops c.up env k op.up ↔ Lost c env k op := by
  cases op with
  | set k0 d =>
    simp only [Op.up, Xcore.Cache.Spec.Drops, Lost, Xcore.Cache.Spec.MayEvict, countWith_up, expired_up]
    exact Iff.rfl
  | verify => exact absurd rfl hv
  | flush => exact present_up c k
  | clean p => exact expired_up c env k
  | _ => exact Iff.rfl

theorem expiredCount_up (c : Cache D) (env : Env) (k0 : Option Str) : Xcore.Cache.Spec.expiredCount c.up env k0 =
    (c.items.filter fun p => decide (some p.1 ≠ k0 ∧ deadlinePassed c.expire p.2.ctime (env.clkAt p.1))).length := by
  unfold Xcore.Cache.Spec.expiredCount
  simp only [Cache.up, List.filter_map, List.length_map]
  rfl

theorem lostCount_up {c : Cache D} {env : Env} {op : Op D} (hv : op ≠ .verify) :
    Xcore.Cache.Spec.dropCount c.up env op.up = lostCount c env op := by
  cases op with
  | set k0 d =>
    simp only [Op.up, Xcore.Cache.Spec.dropCount, lostCount, countWith_up, expiredCount_up, ne_eq, Option.some.injEq]
    rfl
  | verify => exact absurd rfl hv
  | flush => exact count_up c
  | clean p => simp [Op.up, Xcore.Cache.Spec.dropCount, lostCount, expiredCount_up]
  | _ => rfl

theorem keepsLimit_up {op : Op D} (h : KeepsLimit op) : Xcore.Cache.Spec.KeepsLimit op.up := by cases op <;> exact h
theorem percOk_up {op : Op D} (h : PercOk op) : Xcore.Cache.Spec.PercOk op.up := by cases op <;> exact h

theorem uses_up (op : Op D) (o : Out D) : Xcore.Cache.Spec.uses [(op.up, o)] = uses [(op, o)] := by
  cases op <;> try rfl
  cases o <;> try rfl
  rename_i a b
  cases a <;> rfl

theorem uses_cons (p : Op D × Out D) (t : List (Op D × Out D)) : uses (p :: t) = uses [p] ++ uses t := by
  obtain ⟨op, o⟩ := p
  cases op <;> try rfl
  cases o <;> try rfl
  rename_i a b
  cases a <;> rfl

/-! ## Verify -/

theorem verify_present {c : Cache D} (ht : Tracked c.up) (env : Env) (k : Str) :
    Present (verify c env).1 k ↔ Present c k ∧ ¬ Lost c env k .verify := by
  rw [← present_up, ← present_up]
  have hg := verify_get_iff ht.nodup env k
  unfold Xcore.Cache.Spec.Present
  rw [(up_verify c env).1]
  have hu : AMap.get c.up.items k = (AMap.get c.items k).map Entry.up := up_get _ _
  constructor
  · rintro ⟨e, he⟩
    obtain ⟨h1, h2, h3⟩ := (hg e).1 he
    refine ⟨⟨e, h1⟩, ?_⟩
    rintro ⟨x, hx, hb⟩
    rw [hu, hx, Option.map_some] at h1
    cases h1
    rcases hb with hb | hb
    · exact h2 hb
    · simp only [refused, Bool.and_eq_true, Bool.not_eq_true'] at hb
      have := h3 hb.1
      rw [show env.valid k (Entry.up x).ctime = env.valid k x.ctime from rfl, hb.2] at this
      exact absurd this (by simp)
  · rintro ⟨⟨e, he⟩, hb⟩
    refine ⟨e, (hg e).2 ⟨he, ?_⟩⟩
    rw [hu] at he
    cases hx : AMap.get c.items k with
    | none => rw [hx] at he; simp at he
    | some x =>
      rw [hx, Option.map_some] at he
      cases he
      refine ⟨fun h => hb ⟨x, hx, Or.inl h⟩, fun hv => ?_⟩
      cases h3 : env.valid k (Entry.up x).ctime with
      | true => rfl
      | false => exact absurd ⟨x, hx, Or.inr (by simp only [refused]; rw [show c.hasValidator = true from hv, show env.valid k x.ctime = false from h3]; rfl)⟩ hb

theorem filter_length_add {A : Type} (p : A → Bool) (l : List A) : (l.filter p).length + (l.filter fun x => !p x).length = l.length := by
  induction l with
  | nil => rfl
  | cons x l ih => simp only [List.filter_cons]; cases p x <;> simp <;> omega

theorem get_filter {V : Type} (f : Str × V → Bool) (k : Str) : ∀ {m : AMap V}, m.Nodup →
    AMap.get (m.filter f) k = (AMap.get m k).bind fun x => if f (k, x) then some x else none := by
  intro m
  induction m with
  | nil => intro _; rfl
  | cons p m ih =>
    intro hn
    obtain ⟨a, x⟩ := p
    simp only [AMap.Nodup, AMap.keys, List.map_cons, List.nodup_cons] at hn
    have h2 := ih hn.2
    by_cases ha : a = k
    · subst ha
      have h0 : AMap.get m a = none := (AMap.get_eq_none_iff _ _).2 hn.1
      rw [h0] at h2
      cases hf : f (a, x)
      · simp only [List.filter_cons, hf, Bool.false_eq_true, if_false, AMap.get, if_true, Option.bind_some]
        exact h2
      · simp [hf, AMap.get]
    · cases hf : f (a, x)
      · simp only [List.filter_cons, hf, Bool.false_eq_true, if_false, AMap.get, ha]
        exact h2
      · simp only [List.filter_cons, hf, if_true, AMap.get, ha, if_false]
        exact h2

theorem nodup_filter {V : Type} (f : Str × V → Bool) {m : AMap V} (h : m.Nodup) : AMap.Nodup (m.filter f) :=
  List.Nodup.sublist ((List.filter_sublist (p := f)).map Prod.fst) h

theorem nodup_up {c : Cache D} (h : c.up.items.Nodup) : c.items.Nodup := by
  have : c.up.items.keys = c.items.keys := by simp [AMap.keys, Cache.up, List.map_map, Function.comp_def]
  unfold AMap.Nodup at h ⊢
  rw [this] at h; exact h

/-- Verify keeps as many entries as are not lost. -/
theorem verify_length {c : Cache D} (ht : Tracked c.up) (ht' : Tracked (verify c env).1.up) :
    count (verify c env).1 + lostCount c env .verify = count c := by
  have hn := nodup_up ht.nodup
  have hn' := nodup_up ht'.nodup
  have hlen : (verify c env).1.items.length =
      (c.items.filter fun p => !decide (deadlinePassed c.expire p.2.ctime (env.clkAt p.1) ∨ refused c env p.1 p.2 = true)).length := by
    refine Xcore.Cache.length_eq_of_keys hn' (nodup_filter _ hn) ?_
    intro k
    rw [AMap.mem_keys_iff, AMap.mem_keys_iff]
    have := verify_present (env := env) ht k
    unfold Present at this
    rw [this, get_filter _ _ hn]
    cases hx : AMap.get c.items k with
    | none => simp
    | some x =>
      simp only [Lost, hx, Option.some.injEq, exists_eq_left', Option.bind_some]
      by_cases hb : deadlinePassed c.expire x.ctime (env.clkAt k) ∨ refused c env k x = true <;> simp [hb]
  have := filter_length_add (fun p : Str × Entry D => decide (deadlinePassed c.expire p.2.ctime (env.clkAt p.1) ∨ refused c env p.1 p.2 = true)) c.items
  unfold count
  rw [hlen]
  simp only [lostCount]
  omega

/-! ## All calls -/

theorem surplus_step {c : Cache D} {m : Int} {G : Nat} (hm : c.maxitems = m) (hpos : 0 < m)
    (h : Surplus c.up ((max m 10).toNat - 1) G) (env : Env) (op : Op D) (hk : KeepsLimit op) (hp : PercOk op) :
    Surplus (step c env op).1.up ((max m 10).toNat - 1) (G + lostCount c env op) := by
  by_cases hv : op = .verify
  · subst hv
    have ht := tracked_step h.tracked env .verify
    have hl := verify_length h.tracked ht
    have hpile : (step c env .verify).1.up.pile.length = c.up.pile.length := by
      show (verify c env).1.pile.length = c.pile.length
      rw [(up_verify c env).2.2.2.2.2]
    refine ⟨ht, ?_, ?_⟩
    · have := h.few
      rw [count_up] at this ⊢
      rw [hpile]
      show _ ≤ count (verify c env).1 + _
      omega
    · have := h.bound
      rw [hpile]; omega
  · have h2 := h.step (m := m) hm hpos env op.up (keepsLimit_up hk) (percOk_up hp)
    rw [lostCount_up hv, up_step c env op hv] at h2
    exact h2

theorem step_maxitems {c : Cache D} {env : Env} {op : Op D} (hk : KeepsLimit op) : (step c env op).1.maxitems = c.maxitems := by
  by_cases hv : op = .verify
  · subst hv
    show (verify c env).1.maxitems = _
    rw [(up_verify c env).2.2.1]
    exact Xcore.Cache.step_maxitems_eq (c := c.up) env .verify trivial
  · have h1 := Xcore.Cache.step_maxitems_eq (c := c.up) env op.up (keepsLimit_up hk)
    rw [up_step c env op hv] at h1
    exact h1

theorem surplus_run {m : Int} (hpos : 0 < m) : ∀ (hist : List (Env × Op D)) {c : Cache D} {G : Nat}, c.maxitems = m →
    Surplus c.up ((max m 10).toNat - 1) G → (∀ p ∈ hist, KeepsLimit p.2 ∧ PercOk p.2) →
    Surplus (run c hist).1.up ((max m 10).toNat - 1) (G + lostTotal c hist) := by
  intro hist
  induction hist with
  | nil => intro c G _ h _; exact h
  | cons p hist ih =>
    intro c G hm h hk
    obtain ⟨env, op⟩ := p
    have h0 := hk (env, op) (by simp)
    have h1 := surplus_step hm hpos h env op h0.1 h0.2
    have h2 := ih ((step_maxitems h0.1).trans hm) h1 (fun p hp => hk p (by simp [hp]))
    simp only [lostTotal]
    rw [← Nat.add_assoc]
    exact h2

theorem ghost_step {c : Cache D} {u : List Str} {X : Str → Prop} (h : Ghost c.up u X) (env : Env) (op : Op D) (hp : PercOk op) :
    Ghost (step c env op).1.up (u ++ uses [(op, (step c env op).2)]) (fun k => X k ∨ Lost c env k op) := by
  by_cases hv : op = .verify
  · subst hv
    have ht := tracked_step h.tracked env .verify
    have hpile : (step c env .verify).1.up.pile = c.up.pile := (up_verify c env).2.2.2.2.2
    have hpr : ∀ k, Xcore.Cache.Spec.Present (step c env .verify).1.up k ↔ Present c k ∧ ¬ Lost c env k .verify := by
      intro k; rw [present_up]; exact verify_present h.tracked env k
    rw [show uses [(.verify, (step c env .verify).2)] = [] from rfl, List.append_nil]
    refine ⟨ht, ?_, ?_⟩
    · intro k hx
      simp only [not_or] at hx
      obtain ⟨h1, h2⟩ := h.single k hx.1
      rw [hpile, hpr]
      exact ⟨h1, fun hm => ⟨(present_up c k).1 (h2 hm), hx.2⟩⟩
    · intro k k' h1 h2 h3
      rw [hpr] at h1 h2
      rw [hpile]
      exact h.order k k' ((present_up c k).2 h1.1) ((present_up c k').2 h2.1) h3
  · have h2 := h.step env op.up (percOk_up hp)
    rw [up_step c env op hv] at h2
    dsimp only at h2
    rw [uses_up] at h2
    exact h2.mono fun k hx => hx.imp id (lost_up hv).1

theorem ghost_run : ∀ (hist : List (Env × Op D)) {c : Cache D} {u : List Str} {X : Str → Prop}, Ghost c.up u X →
    (∀ p ∈ hist, PercOk p.2) → Ghost (run c hist).1.up (u ++ uses (trace c hist)) (fun k => X k ∨ EverLost c k hist) := by
  intro hist
  induction hist with
  | nil =>
    intro c u X h _
    simp only [run, trace, uses, List.map_nil, List.zip_nil_left, List.append_nil, EverLost, or_false]
    exact h
  | cons p hist ih =>
    intro c u X h hp
    obtain ⟨env, op⟩ := p
    have h1 := ih (ghost_step h env op (hp (env, op) (by simp))) (fun p hp' => hp p (by simp [hp']))
    have ht : trace c ((env, op) :: hist) = (op, (step c env op).2) :: trace (step c env op).1 hist := by
      simp [trace, run]
    rw [ht, uses_cons, ← List.append_assoc]
    refine h1.mono ?_
    rintro k ((hx | hx) | hx)
    · exact Or.inl hx
    · exact Or.inr (Or.inl hx)
    · exact Or.inr (Or.inr hx)

/-! ## Any number of entries -/

theorem up_run {c : Cache D} : ∀ (h : List (Env × Op D)), (∀ p ∈ h, p.2 ≠ .verify) →
    (run c h).1.up = (Xcore.Cache.run c.up (upAll h)).1 := by
  intro h
  induction h generalizing c with
  | nil => intro _; rfl
  | cons p h ih =>
    intro hv
    obtain ⟨env, op⟩ := p
    have h1 := up_step c env op (hv _ List.mem_cons_self)
    have h2 := ih (c := (step c env op).1) (fun p hp => hv p (List.mem_cons_of_mem _ hp))
    simp only [run, upAll, List.map_cons, Xcore.Cache.run, h1]
    exact h2

theorem run_append (c : Cache D) (h1 h2 : List (Env × Op D)) : (run c (h1 ++ h2)).1 = (run (run c h1).1 h2).1 := by
  induction h1 generalizing c with
  | nil => rfl
  | cons p h1 ih => obtain ⟨env, op⟩ := p; simp only [List.cons_append, run]; exact ih _

/-- An environment in which all clocks stand at 0 and the validator refuses everything. -/
def refusing : Env := ⟨fun _ => 0, fun _ => 0, fun _ _ => false⟩

/-- `n` times: Set the empty key, then Verify with a validator that refuses the entry. -/
def refusedPrefix (d : D) : Nat → List (Env × Op D)
  | 0 => []
  | n + 1 => (refusing, .set [] d) :: (refusing, .verify) :: refusedPrefix d n

/-- Set `n` distinct keys. -/
def fill (d : D) : Nat → Nat → List (Env × Op D)
  | _, 0 => []
  | i, n + 1 => (Xcore.Cache.env0, .set (Xcore.Cache.akey (i + 1)) d) :: fill d (i + 1) n

theorem upAll_fill (d : D) (n : Nat) : ∀ i, upAll (fill d i n) = Xcore.Cache.fill d i n := by
  induction n with
  | zero => intro i; rfl
  | succ n ih => intro i; simp only [fill, upAll, List.map_cons, Xcore.Cache.fill, Op.up]; exact congrArg _ (ih _)

theorem mem_fill (d : D) (n : Nat) : ∀ i, ∀ p ∈ fill d i n, ∃ k, p.2 = .set k d := by
  induction n with
  | zero => intro i p hp; simp [fill] at hp
  | succ n ih =>
    intro i p hp
    simp only [fill, List.mem_cons] at hp
    rcases hp with rfl | hp
    · exact ⟨_, rfl⟩
    · exact ih _ p hp

theorem run_refusedPrefix (d : D) (n : Nat) : ∀ (P : List Str),
    (run (⟨10, 0, true, [], P⟩ : Cache D) (refusedPrefix d n)).1 = ⟨10, 0, true, [], P ++ List.replicate n []⟩ := by
  induction n with
  | zero => intro P; simp [refusedPrefix, run]
  | succ n ih =>
    intro P
    have h1 : (step (⟨10, 0, true, [], P⟩ : Cache D) refusing (.set [] d)).1 = ⟨10, 0, true, [([], ⟨0, 0, d⟩)], P ++ [[]]⟩ := by
      simp only [step, set, AMap.get_nil, AMap.set, Option.isSome_none, Bool.false_eq_true, if_false, List.length_cons, List.length_nil]
      rw [if_neg (by omega)]
      rfl
    have h2 : (step (⟨10, 0, true, [([], ⟨0, 0, d⟩)], P ++ [[]]⟩ : Cache D) refusing .verify).1 = ⟨10, 0, true, [], P ++ [[]]⟩ := by
      simp [step, verify, clean, verifyLoop, refusing, AMap.del]
    simp only [refusedPrefix, run]
    rw [h1, h2, ih]
    simp [List.replicate_succ]

end Xcore.V1.Cache
