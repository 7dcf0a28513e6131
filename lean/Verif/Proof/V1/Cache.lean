import Verif.Spec.V1.Cache
import Verif.Proof.CacheMore

/-!
# The cache of version 1 against the cache of version 2
-/

namespace Xcore.V1.Cache

open Xcore.Cache (Env Out Sub Same Tracked)
open Xcore.Cache.Spec

variable {D : Type}

/-- The same entry in version 2: no TTL. -/
def Entry.up (e : Entry D) : Xcore.Cache.Entry D := ⟨e.ctime, e.rtime, 0, e.data⟩

/-- The same cache in version 2. -/
def Cache.up (c : Cache D) : Xcore.Cache.Cache D :=
  ⟨c.maxitems, c.expire, c.hasValidator, c.items.map fun p => (p.1, p.2.up), c.pile⟩

theorem removeFromPile_eq (l : List Str) (k : Str) : removeFromPile l k = Xcore.Cache.removeFromPile l k := by
  induction l with
  | nil => rfl
  | cons x l ih => simp only [removeFromPile, Xcore.Cache.removeFromPile, ih]

theorem up_get (m : AMap (Entry D)) (k : Str) : AMap.get (m.map fun p => (p.1, p.2.up)) k = (AMap.get m k).map Entry.up := by
  induction m with
  | nil => rfl
  | cons p m ih =>
    obtain ⟨a, b⟩ := p
    simp only [List.map_cons, AMap.get]
    split
    · rfl
    · exact ih

theorem up_set (m : AMap (Entry D)) (k : Str) (e : Entry D) :
    (AMap.set m k e).map (fun p => (p.1, p.2.up)) = AMap.set (m.map fun p => (p.1, p.2.up)) k e.up := by
  induction m with
  | nil => rfl
  | cons p m ih =>
    obtain ⟨a, b⟩ := p
    simp only [AMap.set, List.map_cons]
    split
    · rfl
    · simp only [List.map_cons, ih]

theorem up_del (m : AMap (Entry D)) (k : Str) :
    (AMap.del m k).map (fun p => (p.1, p.2.up)) = AMap.del (m.map fun p => (p.1, p.2.up)) k := by
  induction m with
  | nil => rfl
  | cons p m ih =>
    obtain ⟨a, b⟩ := p
    simp only [AMap.del, List.map_cons]
    split
    · exact ih
    · simp only [List.map_cons, ih]

theorem evictLoop_eq {V : Type} (n : Nat) : ∀ (items : AMap V) (pile : List Str),
    Xcore.Cache.evictLoop n items pile = ((pile.take n).foldl (fun m k => AMap.del m k) items, if n ≤ pile.length then some (pile.drop n) else none) := by
  induction n with
  | zero => intro items pile; simp [Xcore.Cache.evictLoop]
  | succ n ih =>
    intro items pile
    cases pile with
    | nil => simp [Xcore.Cache.evictLoop]
    | cons k pile => simp [Xcore.Cache.evictLoop, ih]

theorem up_foldl (l : List Str) : ∀ m : AMap (Entry D),
    (l.foldl (fun m k => AMap.del m k) m).map (fun p => (p.1, p.2.up)) = l.foldl (fun m k => AMap.del m k) (m.map fun p => (p.1, p.2.up)) := by
  induction l with
  | nil => intro m; rfl
  | cons k l ih => intro m; simp only [List.foldl_cons, ih, up_del]

theorem up_sweep (c : Cache D) (env : Env) :
    (if c.expire ≠ 0 then c.items.filter (fun p => !decide (p.2.ctime + c.expire < env.clkAt p.1)) else c.items).map (fun p => (p.1, p.2.up)) =
      Xcore.Cache.sweep c.up.expire env c.up.items := by
  unfold Xcore.Cache.sweep Xcore.Cache.past Cache.up
  by_cases h : c.expire ≠ 0
  · rw [if_pos h, if_pos h, List.filter_map]; rfl
  · rw [if_neg h, if_neg h]

theorem up_clean (c : Cache D) (env : Env) (p : Int) :
    Xcore.Cache.clean c.up env p = ((clean c env p).1.up, (clean c env p).2) := by
  unfold clean Xcore.Cache.clean Xcore.Cache.mClean Xcore.Cache.cleanNum
  simp only [← up_sweep, evictLoop_eq, List.length_map]
  generalize (if c.expire ≠ 0 then c.items.filter (fun p => !decide (p.2.ctime + c.expire < env.clkAt p.1)) else c.items) = items
  by_cases h : (Int.tdiv (items.length * p) 100).toNat ≤ c.pile.length
  · have h' : (Int.tdiv (items.length * p) 100).toNat ≤ c.up.pile.length := h
    rw [if_pos h, if_pos h']
    simp only [Cache.up, up_foldl]
  · have h' : ¬ (Int.tdiv (items.length * p) 100).toNat ≤ c.up.pile.length := h
    rw [if_neg h, if_neg h']
    simp only [Cache.up, up_foldl]

theorem up_set' (c : Cache D) (env : Env) (k : Str) (d : D) :
    Xcore.Cache.set c.up env k d = ((set c env k d).1.up, (set c env k d).2) := by
  have h1 : (AMap.get c.up.items k).isSome = (AMap.get c.items k).isSome := by
    simp only [Cache.up, up_get]; cases AMap.get c.items k <;> rfl
  have h2 : ({ c.up with items := AMap.set c.up.items k ⟨env.clk 0, env.clk 1, 0, d⟩, pile := (if (AMap.get c.up.items k).isSome then Xcore.Cache.removeFromPile c.up.pile k else c.up.pile) ++ [k] } : Xcore.Cache.Cache D) =
      ({ c with items := AMap.set c.items k ⟨env.clk 0, env.clk 1, d⟩, pile := (if (AMap.get c.items k).isSome then removeFromPile c.pile k else c.pile) ++ [k] } : Cache D).up := by
    rw [h1, removeFromPile_eq]
    unfold Cache.up
    simp only [up_set]
    rfl
  unfold set Xcore.Cache.set
  show (let c2 := ({ c.up with items := AMap.set c.up.items k ⟨env.clk 0, env.clk 1, 0, d⟩, pile := (if (AMap.get c.up.items k).isSome then Xcore.Cache.removeFromPile c.up.pile k else c.up.pile) ++ [k] } : Xcore.Cache.Cache D);
    if 0 < c2.maxitems ∧ c2.maxitems ≤ c2.items.length then ((Xcore.Cache.mClean c2 env 10).1, (Xcore.Cache.mClean c2 env 10).2.isSome) else (c2, true)) =
    (let c1 := ({ c with items := AMap.set c.items k ⟨env.clk 0, env.clk 1, d⟩, pile := (if (AMap.get c.items k).isSome then removeFromPile c.pile k else c.pile) ++ [k] } : Cache D);
      ((if 0 < c1.maxitems ∧ c1.maxitems ≤ c1.items.length then ((clean c1 env 10).1, (clean c1 env 10).2.isSome) else (c1, true)).1.up,
       (if 0 < c1.maxitems ∧ c1.maxitems ≤ c1.items.length then ((clean c1 env 10).1, (clean c1 env 10).2.isSome) else (c1, true)).2))
  rw [h2]
  generalize ({ c with items := AMap.set c.items k ⟨env.clk 0, env.clk 1, d⟩, pile := (if (AMap.get c.items k).isSome then removeFromPile c.pile k else c.pile) ++ [k] } : Cache D) = c'
  dsimp only
  have h3 : c'.up.items.length = c'.items.length := by simp [Cache.up]
  have h4 : c'.up.maxitems = c'.maxitems := rfl
  rw [h3, h4]
  split
  · have := up_clean c' env 10
    unfold Xcore.Cache.clean at this
    rw [this]
  · rfl

theorem up_del' (c : Cache D) (k : Str) : Xcore.Cache.del c.up k = (del c k).up := by
  simp only [Xcore.Cache.del, del, Cache.up, up_del, removeFromPile_eq]

theorem up_get' (c : Cache D) (env : Env) (k : Str) :
    Xcore.Cache.get c.up env k = ((get c env k).1.up, (get c env k).2) := by
  unfold get Xcore.Cache.get
  have h : AMap.get c.up.items k = (AMap.get c.items k).map Entry.up := up_get _ _
  rw [h]
  cases he : AMap.get c.items k with
  | none => rfl
  | some e =>
    have hi : Xcore.Cache.invalid c.up env k e.up = ((c.hasValidator && !env.valid k e.ctime) || (decide (c.expire ≠ 0) && decide (e.ctime + c.expire < env.clk 1))) := by
      simp only [Xcore.Cache.invalid, Xcore.Cache.past, Entry.up, Cache.up]; simp only [ne_eq, not_true_eq_false, decide_false, Bool.false_and, Bool.false_or]; rfl
    simp only [Option.map_some, hi]
    cases h1 : (c.hasValidator && !env.valid k e.ctime)
    · cases h2 : (decide (c.expire ≠ 0) && decide (e.ctime + c.expire < env.clk 1))
      · simp only [Bool.or_self, Bool.false_eq_true, if_false, removeFromPile_eq]
        unfold Cache.up
        simp only [up_set]
        rfl
      · simp [up_del']
    · simp [up_del']

/-- Every call but Verify does in version 1 exactly what it does in version 2. -/
theorem up_step (c : Cache D) (env : Env) (op : Op D) (h : op ≠ .verify) :
    Xcore.Cache.step c.up env op.up = ((step c env op).1.up, (step c env op).2) := by
  cases op with
  | set k d => simp only [Op.up, Xcore.Cache.step, step, up_set']
  | get k => simp only [Op.up, Xcore.Cache.step, step, up_get']
  | del k => simp only [Op.up, Xcore.Cache.step, step, up_del']
  | count => simp [Op.up, Xcore.Cache.step, step, count, Xcore.Cache.count, Cache.up]
  | clean p => simp only [Op.up, Xcore.Cache.step, step, up_clean]; all_goals rfl
  | verify => exact absurd rfl h
  | flush => simp [Op.up, Xcore.Cache.step, step, flush, Xcore.Cache.flush, Cache.up]
  | setMaxitems m => rfl
  | setExpire m => rfl
  | setValidator m => rfl

theorem up_verifyLoop (env : Env) : ∀ (l : List (Str × Entry D)) (c : Cache D) (c2 : Xcore.Cache.Cache D) (i : Int), c.up.items = c2.items → c.maxitems = c2.maxitems →
    c.expire = c2.expire → c.hasValidator = c2.hasValidator →
    (verifyLoop env l c i).1.up.items = (Xcore.Cache.verifyLoop env (l.map fun p => (p.1, p.2.up)) c2 i).1.items ∧
    (verifyLoop env l c i).2 = (Xcore.Cache.verifyLoop env (l.map fun p => (p.1, p.2.up)) c2 i).2 ∧
    (verifyLoop env l c i).1.maxitems = (Xcore.Cache.verifyLoop env (l.map fun p => (p.1, p.2.up)) c2 i).1.maxitems ∧
    (verifyLoop env l c i).1.expire = (Xcore.Cache.verifyLoop env (l.map fun p => (p.1, p.2.up)) c2 i).1.expire ∧
    (verifyLoop env l c i).1.hasValidator = (Xcore.Cache.verifyLoop env (l.map fun p => (p.1, p.2.up)) c2 i).1.hasValidator ∧
    (verifyLoop env l c i).1.pile = c.pile := by
  intro l
  induction l with
  | nil => intro c c2 i h1 h2 h3 h4; exact ⟨h1, rfl, h2, h3, h4, rfl⟩
  | cons p l ih =>
    intro c c2 i h1 h2 h3 h4
    obtain ⟨k, x⟩ := p
    simp only [verifyLoop, List.map_cons, Xcore.Cache.verifyLoop]
    have hx : x.up.ctime = x.ctime := rfl
    rw [hx]
    split
    · have := ih { c with items := c.items.del k } (Xcore.Cache.del c2 k) (i + 1) (by
        simp only [Cache.up, up_del, Xcore.Cache.del]; rw [← h1]; rfl) h2 h3 h4
      exact this
    · exact ih c c2 i h1 h2 h3 h4

/-- Verify does to the entries what it does in version 2, and leaves more keys in the pile. -/
theorem up_verify (c : Cache D) (env : Env) :
    (verify c env).1.up.items = (Xcore.Cache.verify c.up env).1.items ∧
    (verify c env).2 = (Xcore.Cache.verify c.up env).2 ∧
    (verify c env).1.maxitems = (Xcore.Cache.verify c.up env).1.maxitems ∧
    (verify c env).1.expire = (Xcore.Cache.verify c.up env).1.expire ∧
    (verify c env).1.hasValidator = (Xcore.Cache.verify c.up env).1.hasValidator ∧
    (verify c env).1.pile = c.pile := by
  have hp : (clean c env 0).1.pile = c.pile := by
    unfold clean; simp
  unfold verify Xcore.Cache.verify
  rw [up_clean]
  revert hp
  generalize clean c env 0 = r
  obtain ⟨c', o⟩ := r
  intro hp
  cases o with
  | none => exact ⟨rfl, rfl, rfl, rfl, rfl, hp⟩
  | some i =>
    simp only
    have hv : c'.up.hasValidator = c'.hasValidator := rfl
    rw [hv]
    split
    · obtain ⟨a1, a2, a3, a4, a5, a6⟩ := up_verifyLoop env c'.items c' c'.up i rfl rfl rfl rfl
      exact ⟨a1, congrArg some a2, a3, a4, a5, a6.trans hp⟩
    · exact ⟨rfl, rfl, rfl, rfl, rfl, hp⟩

theorem up_new (m e : Int) : (new m e : Cache D).up = Xcore.Cache.new m e := rfl

/-- The entries of version 1 are entries of the ideal cache, like those of version 2. -/
theorem sub_step {c : Cache D} {s : Ideal D} (h : Sub c.up s) (env : Env) (op : Op D) :
    Sub (step c env op).1.up (next s env op.up) := by
  have h2 := h.step env op.up
  by_cases hv : op = .verify
  · subst hv
    obtain ⟨a1, a2, a3, a4, a5, a6⟩ := up_verify c env
    have : (Xcore.Cache.step c.up env (Op.up .verify)).1 = (Xcore.Cache.verify c.up env).1 := rfl
    rw [this] at h2
    obtain ⟨b1, b2, b3, b4⟩ := h2
    refine ⟨b1.trans a4.symm, b2.trans a5.symm, ?_, ?_⟩
    · have hs : (step c env .verify).1 = (verify c env).1 := rfl
      rw [hs, a1]; exact b3
    · intro k
      have hs : (step c env .verify).1 = (verify c env).1 := rfl
      rw [hs, a1]; exact b4 k
  · rw [up_step c env op hv] at h2; exact h2

/-- Calls that can evict are the same in both versions. -/
theorem mayEvict_up {c : Cache D} {op : Op D} (h : ¬ MayEvict c op) : ¬ Xcore.Cache.Spec.MayEvict c.up op.up := by
  cases op with
  | set k d =>
    intro hm
    apply h
    obtain ⟨h1, h2⟩ := hm
    refine ⟨h1, ?_⟩
    have e : Xcore.Cache.Spec.countWith c.up k = if (c.items.get k).isSome then count c else count c + 1 := by
      unfold Xcore.Cache.Spec.countWith Xcore.Cache.count count Cache.up
      dsimp only
      rw [up_get]
      simp
    rw [e] at h2
    exact h2
  | clean p => exact h
  | _ => exact fun hm => hm

/-- Without evictions the entries of version 1 are those of the ideal cache. -/
theorem same_step {c : Cache D} {s : Ideal D} (h : Same c.up s) (env : Env) (op : Op D) (hq : ¬ MayEvict c op) :
    Same (step c env op).1.up (next s env op.up) := by
  have h2 := h.step env op.up (mayEvict_up hq)
  refine ⟨sub_step h.toSub env op, fun k hk => h2.sup k ?_⟩
  by_cases hv : op = .verify
  · subst hv
    have hs : (step c env .verify).1 = (verify c env).1 := rfl
    rw [hs, (up_verify c env).1] at hk
    exact hk
  · rw [up_step c env op hv]; exact hk

theorem sub_run {c : Cache D} {s : Ideal D} (h : Sub c.up s) (hist : List (Env × Op D)) : Sub (run c hist).1.up (Xcore.Cache.Spec.after s (upAll hist)) := by
  induction hist generalizing c s with
  | nil => exact h
  | cons p hist ih => obtain ⟨env, op⟩ := p; exact ih (sub_step h env op)

theorem same_run {c : Cache D} {s : Ideal D} (h : Same c.up s) (hist : List (Env × Op D)) (hq : Quiet c hist) :
    Same (run c hist).1.up (after s (upAll hist)) := by
  induction hist generalizing c s with
  | nil => exact h
  | cons p hist ih => obtain ⟨env, op⟩ := p; exact ih (same_step h env op hq.1) hq.2

theorem verifyLoop_pile (env : Env) : ∀ (l : List (Str × Xcore.Cache.Entry D)) (c : Xcore.Cache.Cache D) (i : Int) (k : Str),
    k ∈ (Xcore.Cache.verifyLoop env l c i).1.pile → k ∈ c.pile := by
  intro l
  induction l with
  | nil => intro c i k h; exact h
  | cons p l ih =>
    intro c i k h
    obtain ⟨a, x⟩ := p
    simp only [Xcore.Cache.verifyLoop] at h
    split at h
    · have := ih _ _ _ h
      simp only [Xcore.Cache.del] at this
      rw [Xcore.Cache.removeFromPile_eq_erase] at this
      exact List.mem_of_mem_erase this
    · exact ih _ _ _ h

theorem verify_pile (env : Env) (c : Xcore.Cache.Cache D) (k : Str) : k ∈ (Xcore.Cache.verify c env).1.pile → k ∈ c.pile := by
  have hp : (Xcore.Cache.clean c env 0).1.pile = c.pile := by
    unfold Xcore.Cache.clean Xcore.Cache.mClean Xcore.Cache.cleanNum; simp [Xcore.Cache.evictLoop]
  unfold Xcore.Cache.verify
  revert hp
  generalize Xcore.Cache.clean c env 0 = r
  obtain ⟨c', o⟩ := r
  intro hp h
  cases o with
  | none => rw [← hp]; exact h
  | some i =>
    simp only at h
    rw [← hp]
    split at h
    · exact verifyLoop_pile _ _ _ _ _ h
    · exact h

theorem tracked_step {c : Cache D} (h : Tracked c.up) (env : Env) (op : Op D) : Tracked (step c env op).1.up := by
  have h2 := h.step env op.up
  by_cases hv : op = .verify
  · subst hv
    obtain ⟨a1, a2, a3, a4, a5, a6⟩ := up_verify c env
    have : (Xcore.Cache.step c.up env (Op.up .verify)).1 = (Xcore.Cache.verify c.up env).1 := rfl
    rw [this] at h2
    obtain ⟨b1, b2⟩ := h2
    have hs : (step c env .verify).1 = (verify c env).1 := rfl
    rw [hs]
    refine ⟨by rw [a1]; exact b1, ?_⟩
    intro k hk
    rw [a1] at hk
    show k ∈ (verify c env).1.pile
    rw [a6]
    exact verify_pile env c.up k (b2 k hk)
  · rw [up_step c env op hv] at h2; exact h2

theorem verify_get_iff {c : Xcore.Cache.Cache D} (hn : c.items.Nodup) (env : Env) (k : Str) (e : Xcore.Cache.Entry D) :
    (Xcore.Cache.verify c env).1.items.get k = some e ↔
      c.items.get k = some e ∧ ¬ (c.expire ≠ 0 ∧ e.ctime + c.expire < env.clkAt k) ∧ (c.hasValidator = true → env.valid k e.ctime = true) := by
  rw [Xcore.Cache.verify_get hn]
  cases h : c.items.get k with
  | none => simp
  | some e' =>
    dsimp only
    split
    · rename_i hd
      simp only [Option.some.injEq]
      constructor
      · rintro rfl; exact ⟨rfl, hd.1, hd.2⟩
      · exact fun h => h.1
    · rename_i hd
      simp only [Option.some.injEq]
      constructor
      · intro h; cases h
      · rintro ⟨rfl, h1, h2⟩; exact absurd ⟨h1, h2⟩ hd

/-- Same entries and configuration in both versions. -/
structure SameEntries (c : Cache D) (c2 : Xcore.Cache.Cache D) : Prop where
  items : c.up.items = c2.items
  maxitems : c.maxitems = c2.maxitems
  expire : c.expire = c2.expire
  validator : c.hasValidator = c2.hasValidator

/-- With nothing evicted the pile has no influence on the answers of version 2. -/
theorem pile_irrelevant {c c2 : Xcore.Cache.Cache D} (hi : c.items = c2.items) (hm : c.maxitems = c2.maxitems) (he : c.expire = c2.expire)
    (hv : c.hasValidator = c2.hasValidator) (h0 : c.maxitems ≤ 0) (env : Env) (op : Xcore.Cache.Op D) (hf : CapacityFree op) :
    (Xcore.Cache.step c env op).2 = (Xcore.Cache.step c2 env op).2 ∧
    (Xcore.Cache.step c env op).1.items = (Xcore.Cache.step c2 env op).1.items ∧
    (Xcore.Cache.step c env op).1.maxitems = (Xcore.Cache.step c2 env op).1.maxitems ∧
    (Xcore.Cache.step c env op).1.expire = (Xcore.Cache.step c2 env op).1.expire ∧
    (Xcore.Cache.step c env op).1.hasValidator = (Xcore.Cache.step c2 env op).1.hasValidator := by
  obtain ⟨m, e, v, items, pile⟩ := c
  obtain ⟨m2, e2, v2, items2, pile2⟩ := c2
  simp only at hi hm he hv h0
  subst hi hm he hv
  have hm' : ¬ 0 < m := by omega
  have hcl : ∀ p, p ≤ 0 → ∀ pile, Xcore.Cache.clean (⟨m, e, v, items, pile⟩ : Xcore.Cache.Cache D) env p = (⟨m, e, v, Xcore.Cache.sweep e env items, pile⟩, some 0) := by
    intro p hp pile
    simp only [Xcore.Cache.clean, Xcore.Cache.mClean, Xcore.Cache.cleanNum_nonpos hp, Xcore.Cache.evictLoop]
    try rfl
  have hlp : ∀ (l : List (Str × Xcore.Cache.Entry D)) (c c2 : Xcore.Cache.Cache D) (i : Int), c.items = c2.items → c.maxitems = c2.maxitems →
      c.expire = c2.expire → c.hasValidator = c2.hasValidator →
      (Xcore.Cache.verifyLoop env l c i).2 = (Xcore.Cache.verifyLoop env l c2 i).2 ∧
      (Xcore.Cache.verifyLoop env l c i).1.items = (Xcore.Cache.verifyLoop env l c2 i).1.items ∧
      (Xcore.Cache.verifyLoop env l c i).1.maxitems = (Xcore.Cache.verifyLoop env l c2 i).1.maxitems ∧
      (Xcore.Cache.verifyLoop env l c i).1.expire = (Xcore.Cache.verifyLoop env l c2 i).1.expire ∧
      (Xcore.Cache.verifyLoop env l c i).1.hasValidator = (Xcore.Cache.verifyLoop env l c2 i).1.hasValidator := by
    intro l
    induction l with
    | nil => intro c c2 i h1 h2 h3 h4; exact ⟨rfl, h1, h2, h3, h4⟩
    | cons p l ih =>
      intro c c2 i h1 h2 h3 h4
      obtain ⟨k, x⟩ := p
      simp only [Xcore.Cache.verifyLoop]
      split
      · exact ih _ _ _ (by simp only [Xcore.Cache.del, h1]) h2 h3 h4
      · exact ih _ _ _ h1 h2 h3 h4
  cases op with
  | set k d =>
    simp [Xcore.Cache.step, Xcore.Cache.set, hm']
  | setTTL k t => cases hg : AMap.get items k <;> simp [Xcore.Cache.step, Xcore.Cache.setTTL, hg]
  | get k =>
    cases hg : AMap.get items k with
    | none => simp [Xcore.Cache.step, Xcore.Cache.get, hg]
    | some x =>
      have hpi : Xcore.Cache.invalid ⟨m, e, v, items, pile2⟩ env k x = Xcore.Cache.invalid ⟨m, e, v, items, pile⟩ env k x := rfl
      by_cases hi : Xcore.Cache.invalid ⟨m, e, v, items, pile⟩ env k x = true
      · simp [Xcore.Cache.step, Xcore.Cache.get, hg, hpi, hi, Xcore.Cache.del]
      · simp [Xcore.Cache.step, Xcore.Cache.get, hg, hpi, hi]
  | del k => exact ⟨rfl, rfl, rfl, rfl, rfl⟩
  | count => exact ⟨rfl, rfl, rfl, rfl, rfl⟩
  | clean p =>
    simp [Xcore.Cache.step, hcl p hf]
  | verify =>
    simp only [Xcore.Cache.step, Xcore.Cache.verify, hcl 0 (Int.le_refl 0)]
    cases v with
    | false => exact ⟨rfl, rfl, rfl, rfl, rfl⟩
    | true =>
      simp only [if_true]
      obtain ⟨a1, a2, a3, a4, a5⟩ := hlp (Xcore.Cache.sweep e env items) ⟨m, e, true, Xcore.Cache.sweep e env items, pile⟩
        ⟨m, e, true, Xcore.Cache.sweep e env items, pile2⟩ 0 rfl rfl rfl rfl
      exact ⟨by rw [a1], a2, a3, a4, a5⟩
  | flush => exact ⟨rfl, rfl, rfl, rfl, rfl⟩
  | setMaxitems m => exact ⟨rfl, rfl, rfl, rfl, rfl⟩
  | setExpire e => exact ⟨rfl, rfl, rfl, rfl, rfl⟩
  | setValidator b => exact ⟨rfl, rfl, rfl, rfl, rfl⟩

theorem sameEntries_step {c : Cache D} {c2 : Xcore.Cache.Cache D} (h : SameEntries c c2) (h0 : c.maxitems ≤ 0) (env : Env) (op : Op D)
    (hf : CapacityFree op.up) : (step c env op).2 = (Xcore.Cache.step c2 env op.up).2 ∧ SameEntries (step c env op).1 (Xcore.Cache.step c2 env op.up).1 := by
  obtain ⟨b1, b2, b3, b4, b5⟩ := pile_irrelevant (c := c.up) (c2 := c2) h.items h.maxitems h.expire h.validator h0 env op.up hf
  by_cases hv : op = .verify
  · subst hv
    obtain ⟨a1, a2, a3, a4, a5, a6⟩ := up_verify c env
    refine ⟨?_, a1.trans b2, a3.trans b3, a4.trans b4, a5.trans b5⟩
    rw [← b1]
    simp only [step, Op.up, Xcore.Cache.step, a2]
    all_goals rfl
  · rw [up_step c env op hv] at b1 b2 b3 b4 b5
    exact ⟨b1, b2, b3, b4, b5⟩

theorem sameEntries_run {c : Cache D} {c2 : Xcore.Cache.Cache D} (h : SameEntries c c2) (h0 : c.maxitems ≤ 0) (hist : List (Env × Op D))
    (hf : ∀ p ∈ hist, CapacityFree p.2.up) : (run c hist).2 = (Xcore.Cache.run c2 (hist.map fun p => (p.1, p.2.up))).2 := by
  induction hist generalizing c c2 with
  | nil => rfl
  | cons p hist ih =>
    obtain ⟨env, op⟩ := p
    have hf1 : CapacityFree op.up := hf (env, op) List.mem_cons_self
    obtain ⟨h1, h2⟩ := sameEntries_step h h0 env op hf1
    have h3 : (step c env op).1.maxitems ≤ 0 := by
      rw [h2.maxitems]
      exact Xcore.Cache.step_maxitems env op.up hf1 (h.maxitems ▸ h0)
    have h4 := ih h2 h3 (fun p hp => hf p (List.mem_cons_of_mem _ hp))
    simp only [run, List.map_cons, Xcore.Cache.run, h1, h4]

end Xcore.V1.Cache
