import Verif.Model.CacheWords
import Verif.Proof.Cache
import Verif.Proof.V1.Cache

/-! # `Clean` in 64-bit arithmetic: helpers -/

namespace Xcore.CacheWords

theorem word_eq {n : Int} (h1 : -2 ^ 63 ≤ n) (h2 : n < 2 ^ 63) : word n = n := by
  unfold word; omega

theorem tdiv_abs (n : Int) : (Int.tdiv n 100).natAbs ≤ n.natAbs := by
  rw [Int.natAbs_tdiv]; exact Nat.div_le_self _ _

theorem cleanNum_eq {total : Nat} {perc : Int} (h : total * perc.natAbs < 2 ^ 63) :
    cleanNum total perc = Xcore.Cache.cleanNum total perc := by
  have h0 : ((total : Int) * perc).natAbs < 2 ^ 63 := by rw [Int.natAbs_mul]; simpa using h
  have h1 := tdiv_abs ((total : Int) * perc)
  unfold cleanNum Xcore.Cache.cleanNum
  rw [word_eq (n := (total : Int) * perc) (by omega) (by omega), word_eq (by omega) (by omega)]

theorem zero_fits {n : Nat} : n * (0 : Int).natAbs < 2 ^ 63 := by
  have : (0 : Int).natAbs = 0 := rfl
  rw [this, Nat.mul_zero]; decide

theorem ten_fits {n m : Nat} (h : n ≤ m) (h1 : m * 10 < 2 ^ 63) : n * (10 : Int).natAbs < 2 ^ 63 := by
  have : (10 : Int).natAbs = 10 := rfl
  rw [this]; omega

theorem length_del {V : Type} (m : AMap V) (k : Str) : (m.del k).length ≤ m.length := by
  induction m with
  | nil => exact Nat.le_refl _
  | cons x m ih =>
    obtain ⟨k', v⟩ := x
    simp only [AMap.del]
    split
    · exact Nat.le_succ_of_le ih
    · exact Nat.succ_le_succ ih

theorem length_set {V : Type} (m : AMap V) (k : Str) (v : V) : (m.set k v).length ≤ m.length + 1 := by
  rw [AMap.length_set]; split <;> omega

namespace V2
open Xcore.Cache (Cache Env Op Out sweep evictLoop removeFromPile verifyLoop)
variable {D : Type}

theorem length_sweep (e : Int) (env : Env) (items : AMap (Xcore.Cache.Entry D)) : (sweep e env items).length ≤ items.length := by
  unfold sweep; split
  · exact List.length_filter_le _ _
  · exact Nat.le_refl _

theorem length_evict {V : Type} (n : Nat) : ∀ (items : AMap V) (pile : List Str), (evictLoop n items pile).1.length ≤ items.length := by
  induction n with
  | zero => intro items pile; exact Nat.le_refl _
  | succ n ih =>
    intro items pile
    cases pile with
    | nil => exact Nat.le_refl _
    | cons k pile => exact Nat.le_trans (ih _ _) (length_del _ _)

theorem mClean_eq (c : Cache D) (env : Env) {p : Int} (h : c.items.length * p.natAbs < 2 ^ 63) : mClean c env p = Xcore.Cache.mClean c env p := by
  have h1 : (sweep c.expire env c.items).length * p.natAbs < 2 ^ 63 :=
    Nat.lt_of_le_of_lt (Nat.mul_le_mul_right _ (length_sweep _ _ _)) h
  unfold mClean Xcore.Cache.mClean
  simp only [cleanNum_eq h1]
  rfl

theorem length_mClean (c : Cache D) (env : Env) (p : Int) : (Xcore.Cache.mClean c env p).1.items.length ≤ c.items.length := by
  rw [Xcore.Cache.mClean_items]
  exact Nat.le_trans (length_evict _ _ _) (length_sweep _ _ _)

theorem length_verifyLoop (env : Env) : ∀ (l : List (Str × Xcore.Cache.Entry D)) (c : Cache D) (i : Int),
    (verifyLoop env l c i).1.items.length ≤ c.items.length := by
  intro l
  induction l with
  | nil => intro c i; exact Nat.le_refl _
  | cons x l ih =>
    intro c i
    obtain ⟨k, e⟩ := x
    simp only [verifyLoop]
    split
    · exact Nat.le_trans (ih _ _) (length_del _ _)
    · exact ih _ _

theorem length_verify (c : Cache D) (env : Env) : (Xcore.Cache.verify c env).1.items.length ≤ c.items.length := by
  have h := length_mClean c env 0
  unfold Xcore.Cache.verify Xcore.Cache.clean
  revert h
  cases Xcore.Cache.mClean c env 0 with
  | mk c' o =>
    cases o with
    | none => intro h; exact h
    | some i =>
      intro h
      dsimp only
      split
      · exact Nat.le_trans (length_verifyLoop _ _ _ _) h
      · exact h

/-- A call adds at most one entry. -/
theorem length_step (c : Cache D) (env : Env) (op : Op D) : (Xcore.Cache.step c env op).1.items.length ≤ c.items.length + 1 := by
  cases op with
  | set k d =>
    simp only [Xcore.Cache.step, Xcore.Cache.set]
    split
    · exact Nat.le_trans (length_mClean _ _ _) (length_set _ _ _)
    · exact length_set _ _ _
  | setTTL k t =>
    simp only [Xcore.Cache.step, Xcore.Cache.setTTL]
    cases c.items.get k with
    | none => exact Nat.le_succ _
    | some e => exact length_set _ _ _
  | get k =>
    simp only [Xcore.Cache.step, Xcore.Cache.get]
    cases c.items.get k with
    | none => exact Nat.le_succ _
    | some e =>
      dsimp only
      split
      · exact Nat.le_succ_of_le (length_del _ _)
      · exact length_set _ _ _
  | del k => exact Nat.le_succ_of_le (length_del _ _)
  | clean p => exact Nat.le_succ_of_le (length_mClean _ _ _)
  | verify => exact Nat.le_succ_of_le (length_verify _ _)
  | flush => exact Nat.zero_le _
  | count => exact Nat.le_succ _
  | setMaxitems m => exact Nat.le_succ _
  | setExpire e => exact Nat.le_succ _
  | setValidator b => exact Nat.le_succ _

theorem mClean_zero (c : Cache D) (env : Env) : mClean c env 0 = Xcore.Cache.mClean c env 0 := mClean_eq c env zero_fits

theorem verify_eq (c : Cache D) (env : Env) : verify c env = Xcore.Cache.verify c env := by
  unfold verify Xcore.Cache.verify Xcore.Cache.clean
  rw [mClean_zero]
  generalize Xcore.Cache.mClean c env 0 = r
  obtain ⟨c', o⟩ := r
  cases o <;> rfl

theorem step_eq (c : Cache D) (env : Env) (op : Op D) (h10 : (c.items.length + 1) * 10 < 2 ^ 63)
    (h : ∀ p, op = .clean p → c.items.length * p.natAbs < 2 ^ 63) : step c env op = Xcore.Cache.step c env op := by
  cases op with
  | set k d =>
    simp only [step, Xcore.Cache.step, set, Xcore.Cache.set]
    have hl := length_set c.items k { ctime := env.clk 0, rtime := env.clk 1, ttl := 0, data := d }
    rw [mClean_eq _ env (p := 10) (ten_fits hl h10)]
  | clean p =>
    simp only [step, Xcore.Cache.step, Xcore.Cache.clean]
    rw [mClean_eq c env (h p rfl)]
    rfl
  | verify =>
    simp only [step, Xcore.Cache.step, verify_eq]
    cases (Xcore.Cache.verify c env).2 <;> rfl
  | setTTL k t => simp only [step]
  | get k => simp only [step]
  | del k => simp only [step]
  | count => simp only [step]
  | flush => simp only [step]
  | setMaxitems m => simp only [step]
  | setExpire e => simp only [step]
  | setValidator b => simp only [step]

theorem run_eq : ∀ (h : List (Env × Op D)) (c : Cache D), (c.items.length + h.length) * 10 < 2 ^ 63 →
    (∀ env p, (env, Op.clean p) ∈ h → (c.items.length + h.length) * p.natAbs < 2 ^ 63) → run c h = Xcore.Cache.run c h := by
  intro h
  induction h with
  | nil => intro c _ _; rfl
  | cons q h ih =>
    intro c h10 hp
    obtain ⟨env, op⟩ := q
    simp only [List.length_cons] at h10 hp
    have hs : step c env op = Xcore.Cache.step c env op := by
      refine step_eq c env op (by omega) ?_
      intro p e
      subst e
      exact Nat.lt_of_le_of_lt (Nat.mul_le_mul_right _ (by omega)) (hp env p List.mem_cons_self)
    have hl := length_step c env op
    have hr := ih (Xcore.Cache.step c env op).1 (by omega) (by
      intro env' p hm
      exact Nat.lt_of_le_of_lt (Nat.mul_le_mul_right _ (by omega)) (hp env' p (List.mem_cons_of_mem _ hm)))
    simp only [run, Xcore.Cache.run, hs, hr]

end V2

namespace V1
open Xcore.Cache (Env Out)
open Xcore.V1.Cache (Cache Op removeFromPile verifyLoop)
variable {D : Type}

theorem length_foldl {V : Type} (l : List Str) : ∀ (m : AMap V), (l.foldl (fun m k => AMap.del m k) m).length ≤ m.length := by
  induction l with
  | nil => intro m; exact Nat.le_refl _
  | cons k l ih => intro m; exact Nat.le_trans (ih _) (length_del _ _)

theorem length_alive (c : Cache D) (env : Env) :
    (if c.expire ≠ 0 then c.items.filter fun p => !decide (p.2.ctime + c.expire < env.clkAt p.1) else c.items).length ≤ c.items.length := by
  split
  · exact List.length_filter_le _ _
  · exact Nat.le_refl _

theorem clean_eq (c : Cache D) (env : Env) {p : Int} (h : c.items.length * p.natAbs < 2 ^ 63) : clean c env p = Xcore.V1.Cache.clean c env p := by
  have h1 := Nat.lt_of_le_of_lt (Nat.mul_le_mul_right p.natAbs (length_alive c env)) h
  have h2 := cleanNum_eq h1
  unfold Xcore.Cache.cleanNum at h2
  unfold clean Xcore.V1.Cache.clean
  simp only [h2]

theorem length_clean (c : Cache D) (env : Env) (p : Int) : (Xcore.V1.Cache.clean c env p).1.items.length ≤ c.items.length := by
  have h := length_alive c env
  unfold Xcore.V1.Cache.clean
  dsimp only
  generalize (if c.expire ≠ 0 then c.items.filter fun p => !decide (p.2.ctime + c.expire < env.clkAt p.1) else c.items) = m at *
  split <;> exact Nat.le_trans (length_foldl _ _) h

theorem length_verifyLoop (env : Env) : ∀ (l : List (Str × Xcore.V1.Cache.Entry D)) (c : Cache D) (i : Int),
    (verifyLoop env l c i).1.items.length ≤ c.items.length := by
  intro l
  induction l with
  | nil => intro c i; exact Nat.le_refl _
  | cons x l ih =>
    intro c i
    obtain ⟨k, e⟩ := x
    simp only [verifyLoop]
    split
    · exact Nat.le_trans (ih _ _) (length_del _ _)
    · exact ih _ _

theorem length_verify (c : Cache D) (env : Env) : (Xcore.V1.Cache.verify c env).1.items.length ≤ c.items.length := by
  have h := length_clean c env 0
  unfold Xcore.V1.Cache.verify
  revert h
  cases Xcore.V1.Cache.clean c env 0 with
  | mk c' o =>
    cases o with
    | none => intro h; exact h
    | some i =>
      intro h
      dsimp only
      split
      · exact Nat.le_trans (length_verifyLoop _ _ _ _) h
      · exact h

theorem length_step (c : Cache D) (env : Env) (op : Op D) : (Xcore.V1.Cache.step c env op).1.items.length ≤ c.items.length + 1 := by
  cases op with
  | set k d =>
    simp only [Xcore.V1.Cache.step, Xcore.V1.Cache.set]
    split
    · exact Nat.le_trans (length_clean _ _ _) (length_set _ _ _)
    · exact length_set _ _ _
  | get k =>
    simp only [Xcore.V1.Cache.step, Xcore.V1.Cache.get]
    cases c.items.get k with
    | none => exact Nat.le_succ _
    | some e =>
      dsimp only
      split
      · exact Nat.le_succ_of_le (length_del _ _)
      · split
        · exact Nat.le_succ_of_le (length_del _ _)
        · exact length_set _ _ _
  | del k => exact Nat.le_succ_of_le (length_del _ _)
  | clean p => exact Nat.le_succ_of_le (length_clean _ _ _)
  | verify => exact Nat.le_succ_of_le (length_verify _ _)
  | flush => exact Nat.zero_le _
  | count => exact Nat.le_succ _
  | setMaxitems m => exact Nat.le_succ _
  | setExpire e => exact Nat.le_succ _
  | setValidator b => exact Nat.le_succ _

theorem clean_zero (c : Cache D) (env : Env) : clean c env 0 = Xcore.V1.Cache.clean c env 0 := clean_eq c env zero_fits

theorem verify_eq (c : Cache D) (env : Env) : verify c env = Xcore.V1.Cache.verify c env := by
  unfold verify Xcore.V1.Cache.verify
  rw [clean_zero]
  generalize Xcore.V1.Cache.clean c env 0 = r
  obtain ⟨c', o⟩ := r
  cases o <;> rfl

theorem step_eq (c : Cache D) (env : Env) (op : Op D) (h10 : (c.items.length + 1) * 10 < 2 ^ 63)
    (h : ∀ p, op = .clean p → c.items.length * p.natAbs < 2 ^ 63) : step c env op = Xcore.V1.Cache.step c env op := by
  cases op with
  | set k d =>
    have hl := length_set c.items k { ctime := env.clk 0, rtime := env.clk 1, data := d }
    have e : ∀ pile, clean { c with items := c.items.set k { ctime := env.clk 0, rtime := env.clk 1, data := d }, pile } env 10 =
        Xcore.V1.Cache.clean { c with items := c.items.set k { ctime := env.clk 0, rtime := env.clk 1, data := d }, pile } env 10 :=
      fun pile => clean_eq _ env (ten_fits hl h10)
    simp only [step, Xcore.V1.Cache.step, set, Xcore.V1.Cache.set, e]
    rfl
  | clean p =>
    simp only [step, Xcore.V1.Cache.step]
    rw [clean_eq c env (h p rfl)]
    rfl
  | verify =>
    simp only [step, Xcore.V1.Cache.step, verify_eq]
    cases (Xcore.V1.Cache.verify c env).2 <;> rfl
  | get k => simp only [step]
  | del k => simp only [step]
  | count => simp only [step]
  | flush => simp only [step]
  | setMaxitems m => simp only [step]
  | setExpire e => simp only [step]
  | setValidator b => simp only [step]

theorem run_eq : ∀ (h : List (Env × Op D)) (c : Cache D), (c.items.length + h.length) * 10 < 2 ^ 63 →
    (∀ env p, (env, Op.clean p) ∈ h → (c.items.length + h.length) * p.natAbs < 2 ^ 63) → run c h = Xcore.V1.Cache.run c h := by
  intro h
  induction h with
  | nil => intro c _ _; rfl
  | cons q h ih =>
    intro c h10 hp
    obtain ⟨env, op⟩ := q
    simp only [List.length_cons] at h10 hp
    have hs : step c env op = Xcore.V1.Cache.step c env op := by
      refine step_eq c env op (by omega) ?_
      intro p e
      subst e
      exact Nat.lt_of_le_of_lt (Nat.mul_le_mul_right _ (by omega)) (hp env p List.mem_cons_self)
    have hl := length_step c env op
    have hr := ih (Xcore.V1.Cache.step c env op).1 (by omega) (by
      intro env' p hm
      exact Nat.lt_of_le_of_lt (Nat.mul_le_mul_right _ (by omega)) (hp env' p (List.mem_cons_of_mem _ hm)))
    simp only [run, Xcore.V1.Cache.run, hs, hr]

end V1
end Xcore.CacheWords
