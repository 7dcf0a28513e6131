import Verif.Spec.Cache
import Verif.Base.ListAux

/-! # Helper lemmas about the sequential cache model -/

namespace Xcore.Cache

open Spec

variable {D : Type}

theorem removeFromPile_eq_erase (l : List Str) (k : Str) : removeFromPile l k = l.erase k := by
  induction l with
  | nil => rfl
  | cons x xs ih =>
    simp only [removeFromPile, List.erase_cons]
    by_cases h : x = k <;> simp [h, ih]

/-! ## Content of the items after each operation -/

theorem sweep_nodup {items : AMap (Entry D)} (h : items.Nodup) (e : Int) (env : Env) : (sweep e env items).Nodup := by
  unfold sweep; split
  · exact AMap.nodup_filter h _
  · exact h

theorem sweep_get {items : AMap (Entry D)} (h : items.Nodup) (ex : Int) (env : Env) (k : Str) :
    (sweep ex env items).get k = match items.get k with
      | some e => if deadlinePassed ex e.ctime (env.clkAt k) then none else some e
      | none => none := by
  unfold sweep deadlinePassed
  by_cases hx : ex = 0
  · simp [hx]; cases items.get k <;> rfl
  · simp only [ne_eq, hx, not_false_eq_true, if_true, true_and]
    rw [AMap.get_filter h]
    cases hk : items.get k with
    | none => rfl
    | some e =>
      simp only [Option.bind_some, past]
      by_cases hp : e.ctime + ex < env.clkAt k <;> simp [hp]

theorem evictLoop_nodup {V : Type} (n : Nat) : ∀ {items : AMap V} {pile : List Str}, items.Nodup →
    (evictLoop n items pile).1.Nodup := by
  induction n with
  | zero => intro items pile h; simpa [evictLoop] using h
  | succ n ih =>
    intro items pile h
    cases pile with
    | nil => simpa [evictLoop] using h
    | cons k pile => exact ih (AMap.nodup_del h k)

theorem evictLoop_get {V : Type} (n : Nat) : ∀ (items : AMap V) (pile : List Str) (k : Str),
    (evictLoop n items pile).1.get k = if k ∈ pile.take n then none else items.get k := by
  induction n with
  | zero => intro items pile k; simp [evictLoop]
  | succ n ih =>
    intro items pile k
    cases pile with
    | nil => simp [evictLoop]
    | cons x pile =>
      simp only [evictLoop, ih, List.take_succ_cons, List.mem_cons, AMap.get_del]
      by_cases h1 : k ∈ pile.take n <;> by_cases h2 : k = x <;> simp [h1, h2]

theorem evictLoop_snd {V : Type} (n : Nat) : ∀ (items : AMap V) (pile : List Str),
    (evictLoop n items pile).2 = if n ≤ pile.length then some (pile.drop n) else none := by
  induction n with
  | zero => intro items pile; simp [evictLoop]
  | succ n ih =>
    intro items pile
    cases pile with
    | nil => simp [evictLoop]
    | cons x pile => simp only [evictLoop, ih]; simp

theorem mClean_items (c : Cache D) (env : Env) (perc : Int) :
    (mClean c env perc).1.items =
      (evictLoop (cleanNum (sweep c.expire env c.items).length perc).toNat (sweep c.expire env c.items) c.pile).1 := by
  unfold mClean
  dsimp only
  split <;> rename_i h <;> rw [h]

theorem mClean_config (c : Cache D) (env : Env) (perc : Int) :
    (mClean c env perc).1.expire = c.expire ∧ (mClean c env perc).1.hasValidator = c.hasValidator ∧
      (mClean c env perc).1.maxitems = c.maxitems := by
  unfold mClean
  dsimp only
  split <;> simp

theorem mClean_nodup {c : Cache D} (h : c.items.Nodup) (env : Env) (perc : Int) :
    (mClean c env perc).1.items.Nodup := by
  rw [mClean_items]; exact evictLoop_nodup _ (sweep_nodup h _ _)

theorem mClean_get {c : Cache D} (h : c.items.Nodup) (env : Env) (perc : Int) (k : Str) :
    (mClean c env perc).1.items.get k =
      if k ∈ c.pile.take (cleanNum (sweep c.expire env c.items).length perc).toNat then none
      else match c.items.get k with
        | some e => if deadlinePassed c.expire e.ctime (env.clkAt k) then none else some e
        | none => none := by
  rw [mClean_items, evictLoop_get, sweep_get h]

theorem mClean_snd (c : Cache D) (env : Env) (perc : Int) :
    (mClean c env perc).2 =
      let num := (cleanNum (sweep c.expire env c.items).length perc).toNat
      if num ≤ c.pile.length then some (num : Int) else none := by
  have hs := evictLoop_snd (cleanNum (sweep c.expire env c.items).length perc).toNat (sweep c.expire env c.items) c.pile
  unfold mClean
  dsimp only
  split <;> rename_i h <;> rw [h] at hs <;> dsimp only at hs
  · split at hs
    · simp [*]
    · simp at hs
  · split at hs
    · simp at hs
    · simp [*]

theorem mClean_pile (c : Cache D) (env : Env) (perc : Int) :
    (mClean c env perc).1.pile =
      let num := (cleanNum (sweep c.expire env c.items).length perc).toNat
      if num ≤ c.pile.length then c.pile.drop num else c.pile := by
  have hs := evictLoop_snd (cleanNum (sweep c.expire env c.items).length perc).toNat (sweep c.expire env c.items) c.pile
  unfold mClean
  dsimp only
  split <;> rename_i h <;> rw [h] at hs <;> dsimp only at hs
  · split at hs
    · simp at hs; simp [*]
    · simp at hs
  · split at hs
    · simp at hs
    · simp [*]

theorem cleanNum_nonpos {n : Nat} {p : Int} (h : p ≤ 0) : (cleanNum n p).toNat = 0 := by
  unfold cleanNum
  have h1 : (n : Int) * p ≤ 0 := Int.mul_nonpos_of_nonneg_of_nonpos (by omega) h
  have : Int.tdiv (n * p) 100 ≤ 0 := by
    have := Int.tdiv_nonneg (a := -(n * p)) (b := 100) (by omega) (by omega)
    rw [Int.neg_tdiv] at this; omega
  omega

theorem cleanNum_le {n : Nat} {p : Int} (h : p ≤ 100) : (cleanNum n p).toNat ≤ n := by
  by_cases hp : p ≤ 0
  · rw [cleanNum_nonpos hp]; omega
  · unfold cleanNum
    have h0 : 0 ≤ (n : Int) * p := Int.mul_nonneg (by omega) (by omega)
    rw [Int.tdiv_eq_ediv_of_nonneg h0]
    have h1 : (n : Int) * p ≤ n * 100 := Int.mul_le_mul_of_nonneg_left h (by omega)
    omega

/-! ## verifyLoop -/

theorem verifyLoop_config (env : Env) : ∀ (l : List (Str × Entry D)) (c : Cache D) (i : Int),
    (verifyLoop env l c i).1.expire = c.expire ∧ (verifyLoop env l c i).1.hasValidator = c.hasValidator ∧
      (verifyLoop env l c i).1.maxitems = c.maxitems := by
  intro l
  induction l with
  | nil => intro c i; simp [verifyLoop]
  | cons p l ih =>
    intro c i
    obtain ⟨k, x⟩ := p
    simp only [verifyLoop]
    split
    · rw [(ih _ _).1, (ih _ _).2.1, (ih _ _).2.2]; simp [del]
    · exact ih _ _

theorem verifyLoop_nodup (env : Env) : ∀ (l : List (Str × Entry D)) (c : Cache D) (i : Int), c.items.Nodup →
    (verifyLoop env l c i).1.items.Nodup := by
  intro l
  induction l with
  | nil => intro c i h; simpa [verifyLoop] using h
  | cons p l ih =>
    intro c i h
    obtain ⟨k, x⟩ := p
    simp only [verifyLoop]
    split
    · exact ih _ _ (AMap.nodup_del h k)
    · exact ih _ _ h

open Classical in
theorem verifyLoop_get (env : Env) : ∀ (l : List (Str × Entry D)) (c : Cache D) (i : Int) (k : Str),
    (verifyLoop env l c i).1.items.get k =
      if (∃ e, (k, e) ∈ l ∧ env.valid k e.ctime = false) then none else c.items.get k := by
  intro l
  induction l with
  | nil => intro c i k; simp [verifyLoop]
  | cons p l ih =>
    intro c i k
    obtain ⟨k0, x⟩ := p
    simp only [verifyLoop]
    by_cases hv : env.valid k0 x.ctime = true
    · simp only [hv, Bool.not_true, Bool.false_eq_true, if_false, ih]
      congr 1
      simp only [List.mem_cons, Prod.mk.injEq, eq_iff_iff]
      constructor
      · rintro ⟨e, h1, h2⟩; exact ⟨e, Or.inr h1, h2⟩
      · rintro ⟨e, h1 | h1, h2⟩
        · obtain ⟨rfl, rfl⟩ := h1; simp [hv] at h2
        · exact ⟨e, h1, h2⟩
    · simp only [Bool.not_eq_true] at hv
      simp only [hv, Bool.not_false, if_true, ih, del, AMap.get_del, List.mem_cons, Prod.mk.injEq]
      by_cases hk : k = k0
      · subst hk
        have : ∃ e, ((k = k ∧ e = x) ∨ (k, e) ∈ l) ∧ env.valid k e.ctime = false := ⟨x, by simp, hv⟩
        rw [if_pos this]; simp
      · simp [hk]

open Classical in
theorem verifyLoop_get_self (env : Env) {c : Cache D} (h : c.items.Nodup) (i : Int) (k : Str) :
    (verifyLoop env c.items c i).1.items.get k = match c.items.get k with
      | some e => if env.valid k e.ctime = true then some e else none
      | none => none := by
  rw [verifyLoop_get]
  cases hk : c.items.get k with
  | none => simp
  | some e =>
    by_cases hv : env.valid k e.ctime = true
    · rw [if_neg]
      · simp [hv]
      · rintro ⟨e', hm, hv'⟩
        have := AMap.get_of_mem h hm
        rw [hk] at this; cases this; simp [hv] at hv'
    · rw [if_pos ⟨e, AMap.mem_of_get hk, by simpa using hv⟩]; simp [hv]

theorem verify_fst (c : Cache D) (env : Env) :
    (verify c env).1 = if (mClean c env 0).1.hasValidator
      then (verifyLoop env (mClean c env 0).1.items (mClean c env 0).1 ((mClean c env 0).2.getD 0)).1
      else (mClean c env 0).1 := by
  have hs : ∃ i, (mClean c env 0).2 = some i := by
    rw [mClean_snd]; simp [cleanNum_nonpos (Int.le_refl 0)]
  obtain ⟨i, hi⟩ := hs
  have h2 : clean c env 0 = ((mClean c env 0).1, some i) := by
    unfold clean; rw [← hi]
  unfold verify
  rw [h2]
  simp only [hi, Option.getD_some]
  split <;> rfl

theorem verify_get {c : Cache D} (h : c.items.Nodup) (env : Env) (k : Str) :
    (verify c env).1.items.get k = match c.items.get k with
      | some e => if ¬ deadlinePassed c.expire e.ctime (env.clkAt k) ∧
            (c.hasValidator = true → env.valid k e.ctime = true) then some e else none
      | none => none := by
  rw [verify_fst, (mClean_config c env 0).2.1]
  have hg := mClean_get h env 0 k
  simp only [cleanNum_nonpos (Int.le_refl 0), List.take_zero, List.not_mem_nil, if_false] at hg
  cases hv : c.hasValidator with
  | true =>
    simp only [if_true]
    rw [verifyLoop_get_self env (mClean_nodup h env 0), hg]
    cases c.items.get k with
    | none => rfl
    | some e =>
      by_cases hd : deadlinePassed c.expire e.ctime (env.clkAt k) <;> simp [hd]
  | false =>
    simp only [Bool.false_eq_true, if_false]
    rw [hg]
    cases c.items.get k with
    | none => rfl
    | some e =>
      by_cases hd : deadlinePassed c.expire e.ctime (env.clkAt k) <;> simp [hd]

theorem verify_nodup {c : Cache D} (h : c.items.Nodup) (env : Env) : (verify c env).1.items.Nodup := by
  rw [verify_fst]
  split
  · exact verifyLoop_nodup _ _ _ _ (mClean_nodup h env 0)
  · exact mClean_nodup h env 0

theorem verify_config (c : Cache D) (env : Env) :
    (verify c env).1.expire = c.expire ∧ (verify c env).1.hasValidator = c.hasValidator ∧
      (verify c env).1.maxitems = c.maxitems := by
  rw [verify_fst]
  have h1 := mClean_config c env 0
  split
  · have h2 := verifyLoop_config env (mClean c env 0).1.items (mClean c env 0).1 ((mClean c env 0).2.getD 0)
    rw [h2.1, h2.2.1, h2.2.2]; exact h1
  · exact h1

/-! ## Nodup is preserved by every operation -/

/-- The cache obtained by `Set` before the automatic clean. -/
def setRaw (c : Cache D) (env : Env) (k : Str) (d : D) : Cache D :=
  { c with
    items := c.items.set k { ctime := env.clk 0, rtime := env.clk 1, ttl := 0, data := d },
    pile := (if (c.items.get k).isSome then removeFromPile c.pile k else c.pile) ++ [k] }

theorem set_eq (c : Cache D) (env : Env) (k : Str) (d : D) :
    set c env k d = if 0 < c.maxitems ∧ c.maxitems ≤ (setRaw c env k d).items.length
      then ((mClean (setRaw c env k d) env 10).1, (mClean (setRaw c env k d) env 10).2.isSome)
      else (setRaw c env k d, true) := rfl

theorem step_nodup {c : Cache D} (h : c.items.Nodup) (env : Env) (op : Op D) : (step c env op).1.items.Nodup := by
  cases op with
  | set k d =>
    simp only [step, set_eq]
    split
    · exact mClean_nodup (AMap.nodup_set h _ _) _ _
    · exact AMap.nodup_set h _ _
  | setTTL k t =>
    simp only [step, setTTL]
    split
    · exact AMap.nodup_set h _ _
    · exact h
  | get k =>
    simp only [step, get]
    split
    · split
      · exact AMap.nodup_del h _
      · exact AMap.nodup_set h _ _
    · exact h
  | del k => exact AMap.nodup_del h _
  | count => exact h
  | clean p => exact mClean_nodup h _ _
  | verify => exact verify_nodup h _
  | flush => exact AMap.nodup_nil
  | setMaxitems m => exact h
  | setExpire e => exact h
  | setValidator b => exact h

theorem invalid_iff_Bad (c : Cache D) (env : Env) (k : Str) (e : Entry D) (s : Ideal D)
    (h1 : s.expire = c.expire) (h2 : s.hasValidator = c.hasValidator) :
    invalid c env k e = true ↔ Bad s env k ⟨e.data, e.ctime, e.ttl⟩ := by
  unfold invalid Bad deadlinePassed past
  simp only [h1, h2, Bool.or_eq_true, Bool.and_eq_true, decide_eq_true_eq, Bool.not_eq_true', or_assoc]

/-- The record the ideal cache would hold for an entry. -/
def toRec (e : Entry D) : Rec D := ⟨e.data, e.ctime, e.ttl⟩

end Xcore.Cache
