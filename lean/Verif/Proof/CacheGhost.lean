import Verif.Proof.CacheMore

/-! # The pile in all histories: keys left behind by dropped entries -/

namespace Xcore.Cache

open Spec

variable {D : Type}

/-! ## Lengths -/

theorem length_del_ge {V : Type} {m : AMap V} (hn : m.Nodup) (k : Str) : m.length ≤ (m.del k).length + 1 := by
  by_cases h : k ∈ m.keys
  · have := AMap.length_del_of_mem hn h; omega
  · rw [AMap.del_of_not_mem h]; omega

theorem evictLoop_length_ge {V : Type} (n : Nat) : ∀ {items : AMap V} {pile : List Str}, items.Nodup →
    items.length ≤ (evictLoop n items pile).1.length + n := by
  induction n with
  | zero => intro items pile _; simp [evictLoop]
  | succ n ih =>
    intro items pile h
    cases pile with
    | nil => simp only [evictLoop]; omega
    | cons k pile =>
      have h1 := length_del_ge h k
      have h2 := ih (pile := pile) (AMap.nodup_del h k)
      simp only [evictLoop]; omega

theorem sweep_length (c : Cache D) (env : Env) :
    (sweep c.expire env c.items).length + expiredCount c env none = c.items.length := by
  unfold expiredCount sweep
  have hp : ∀ p : Str × Entry D, decide (some p.1 ≠ none ∧ deadlinePassed c.expire p.2.ctime (env.clkAt p.1)) =
      (decide (c.expire ≠ 0) && past p.2.ctime c.expire (env.clkAt p.1)) := by
    intro p; simp [deadlinePassed, past]
  simp only [hp]
  by_cases he : c.expire = 0
  · simp [he]
  · simp only [ne_eq, he, not_false_eq_true, if_true, decide_true, Bool.true_and]
    generalize c.items = l
    induction l with
    | nil => rfl
    | cons x l ih =>
      simp only [List.filter_cons]
      cases past x.2.ctime c.expire (env.clkAt x.1)
      · simp only [Bool.not_false, if_true, Bool.false_eq_true, if_false, List.length_cons]; omega
      · simp only [Bool.not_true, Bool.false_eq_true, if_false, if_true, List.length_cons]; omega

/-- Keys left behind: the surplus of the pile. -/
structure Surplus (c : Cache D) (B G : Nat) : Prop where
  tracked : Tracked c
  few : c.pile.length ≤ count c + G
  bound : c.pile.length ≤ B + G

theorem length_erase_append {l : List Str} {k : Str} (h : k ∈ l) : (l.erase k ++ [k]).length = l.length := by
  rw [List.length_append, List.length_erase_of_mem h]
  have := List.length_pos_of_mem h
  simp only [List.length_cons, List.length_nil]; omega

theorem Tracked.mem_of_get {c : Cache D} (h : Tracked c) {k : Str} {e : Entry D} (he : c.items.get k = some e) : k ∈ c.pile :=
  h.sub k ((AMap.mem_keys_iff _ _).2 ⟨e, he⟩)

theorem Surplus.del {c : Cache D} {B G : Nat} (h : Surplus c B G) (k : Str) : Surplus (del c k) B G := by
  have h1 : (Cache.del c k).pile.length ≤ c.pile.length := by
    simp only [Cache.del, removeFromPile_eq_erase]; exact List.length_erase_le
  refine ⟨h.tracked.del k, ?_, Nat.le_trans h1 h.bound⟩
  have hf := h.few
  simp only [count] at hf ⊢
  by_cases hk : k ∈ c.items.keys
  · have h2 := AMap.length_del_of_mem h.tracked.nodup hk
    have hp := h.tracked.sub k hk
    simp only [Cache.del, removeFromPile_eq_erase, List.length_erase_of_mem hp]
    have := List.length_pos_of_mem hp
    omega
  · simp only [Cache.del] at h1 ⊢
    rw [AMap.del_of_not_mem hk]
    omega

theorem Surplus.verifyLoop (env : Env) {B G : Nat} : ∀ (l : List (Str × Entry D)) {c : Cache D} (_ : Surplus c B G) (i : Int),
    Surplus (verifyLoop env l c i).1 B G := by
  intro l
  induction l with
  | nil => intro c h i; exact h
  | cons p l ih =>
    intro c h i
    obtain ⟨k, x⟩ := p
    simp only [Cache.verifyLoop]
    split
    · exact ih (h.del k) _
    · exact ih h _

/-- What a clean does to the surplus. -/
theorem mClean_few {c : Cache D} (ht : Tracked c) {G : Nat} (hf : c.pile.length ≤ count c + G) (env : Env) {p : Int} (hp : p ≤ 100) :
    (mClean c env p).1.pile.length + (cleanNum (sweep c.expire env c.items).length p).toNat = c.pile.length ∧
    (mClean c env p).1.pile.length ≤ count (mClean c env p).1 + (G + expiredCount c env none) := by
  have hl := ht.length_le
  have hs := sweep_length c env
  have hn := cleanNum_le (n := (sweep c.expire env c.items).length) hp
  have hpile := mClean_pile c env p
  dsimp only at hpile
  rw [if_pos (by omega)] at hpile
  have he := evictLoop_length_ge (cleanNum (sweep c.expire env c.items).length p).toNat (pile := c.pile)
    (sweep_nodup ht.nodup c.expire env)
  simp only [count] at hf ⊢
  rw [mClean_items, hpile, List.length_drop]
  constructor <;> omega

theorem Surplus.mono {c : Cache D} {B G G' : Nat} (h : Surplus c B G) (hg : G ≤ G') : Surplus c B G' := by
  refine ⟨h.tracked, ?_, ?_⟩
  · have := h.few; omega
  · have := h.bound; omega

theorem Surplus.mClean {c : Cache D} {B G : Nat} (h : Surplus c B G) (env : Env) {p : Int} (hp : p ≤ 100) :
    Surplus (mClean c env p).1 B (G + expiredCount c env none) := by
  obtain ⟨h1, h2⟩ := mClean_few h.tracked h.few env hp
  refine ⟨h.tracked.mClean env p, h2, ?_⟩
  have := h.bound; omega

theorem expired_set (c : Cache D) (env : Env) (k : Str) (d : D) (l : AMap (Entry D)) (hn : l.Nodup) :
    ((l.set k { ctime := env.clk 0, rtime := env.clk 1, ttl := 0, data := d }).filter fun p => decide (some p.1 ≠ (none : Option Str) ∧
      deadlinePassed c.expire p.2.ctime (env.clkAt p.1))).length ≤
    (if deadlinePassed c.expire (env.clk 0) (env.clkAt k) then 1 else 0) +
      (l.filter fun p => decide (some p.1 ≠ some k ∧ deadlinePassed c.expire p.2.ctime (env.clkAt p.1))).length := by
  have hp : ∀ p : Str × Entry D, decide (some p.1 ≠ none ∧ deadlinePassed c.expire p.2.ctime (env.clkAt p.1)) =
      decide (deadlinePassed c.expire p.2.ctime (env.clkAt p.1)) := by intro p; simp
  simp only [hp]
  induction l with
  | nil =>
    simp only [AMap.set, List.filter_cons, List.filter_nil]
    split <;> rename_i h <;> simp only [decide_eq_true_eq] at h <;> simp [h]
  | cons x l ih =>
    obtain ⟨k', e⟩ := x
    have hn' : AMap.Nodup l := by
      simp only [AMap.Nodup, AMap.keys, List.map_cons, List.nodup_cons] at hn
      exact hn.2
    by_cases hk : k' = k
    · subst hk
      simp only [AMap.set, if_true]
      have hnot : ∀ q ∈ l, q.1 ≠ k' := by
        intro q hq he
        simp only [AMap.Nodup, AMap.keys, List.map_cons, List.nodup_cons] at hn
        exact hn.1 (List.mem_map.2 ⟨q, hq, he⟩)
      have hsame : l.filter (fun p => decide (some p.1 ≠ some k' ∧ deadlinePassed c.expire p.2.ctime (env.clkAt p.1))) =
          l.filter (fun p => decide (deadlinePassed c.expire p.2.ctime (env.clkAt p.1))) := by
        refine List.filter_congr ?_
        intro q hq
        simp [hnot q hq]
      rw [List.filter_cons, List.filter_cons, hsame]
      simp only [ne_eq, not_true_eq_false, false_and, decide_false, Bool.false_eq_true, if_false, decide_eq_true_eq]
      split
      · simp only [List.length_cons]; omega
      · omega
    · simp only [AMap.set, hk, if_false]
      rw [List.filter_cons, List.filter_cons]
      have := ih hn'
      have hk2 : some k' ≠ some k := by simpa using hk
      by_cases hd : deadlinePassed c.expire e.ctime (env.clkAt k')
      · simp only [hd, hk2, decide_true, if_true, ne_eq, not_false_eq_true, true_and, List.length_cons] at this ⊢
        omega
      · simp only [hd, decide_false, Bool.false_eq_true, if_false, and_false]
        exact this

theorem expiredCount_setRaw (c : Cache D) (hn : c.items.Nodup) (env : Env) (k : Str) (d : D) :
    expiredCount (setRaw c env k d) env none ≤
      (if deadlinePassed c.expire (env.clk 0) (env.clkAt k) then 1 else 0) + expiredCount c env (some k) := by
  exact expired_set c env k d c.items hn

theorem setRaw_pile_length {c : Cache D} (h : Tracked c) (env : Env) (k : Str) (d : D) :
    (setRaw c env k d).pile.length = if (c.items.get k).isSome then c.pile.length else c.pile.length + 1 := by
  cases hk : c.items.get k with
  | none => simp [setRaw, hk]
  | some e =>
    simp only [setRaw, hk, Option.isSome_some, if_true, removeFromPile_eq_erase]
    exact length_erase_append (h.mem_of_get hk)

theorem Surplus.step {c : Cache D} {m : Int} {G : Nat} (hm : c.maxitems = m) (hpos : 0 < m)
    (h : Surplus c ((max m 10).toNat - 1) G) (env : Env) (op : Op D) (hk : KeepsLimit op) (hp : PercOk op) :
    Surplus (step c env op).1 ((max m 10).toNat - 1) (G + dropCount c env op) := by
  cases op with
  | set k d =>
    have ht := h.tracked.setRaw env k d
    have hpl := setRaw_pile_length h.tracked env k d
    have hl := setRaw_length c env k d
    have hfew : (setRaw c env k d).pile.length ≤ count (setRaw c env k d) + G := by
      have := h.few
      simp only [count] at this ⊢
      rw [hpl, hl]
      unfold countWith
      simp only [count]
      split <;> omega
    have hb := h.bound
    simp only [Cache.step, set_eq, dropCount]
    rw [hl]
    have hx := expiredCount_setRaw c h.tracked.nodup env k d
    split
    · rename_i hc
      generalize (if deadlinePassed c.expire (env.clk 0) (env.clkAt k) then 1 else 0) + expiredCount c env (some k) = X at hx ⊢
      obtain ⟨h1, h2⟩ := mClean_few ht hfew env (p := 10) (by omega)
      refine ⟨ht.mClean env 10, Nat.le_trans h2 (Nat.add_le_add_left (by omega) _), ?_⟩
      rw [cleanNum_ten] at h1
      have hs := sweep_length (setRaw c env k d) env
      have hle := (ht.mClean env 10).length_le
      have hlen : count (Cache.mClean (setRaw c env k d) env 10).1 ≤ (sweep (setRaw c env k d).expire env (setRaw c env k d).items).length := by
        have hse : (Cache.mClean (setRaw c env k d) env 10).1.items.length ≤ (sweep (setRaw c env k d).expire env (setRaw c env k d).items).length := by
          have := nodup_length_le (l := (Cache.mClean (setRaw c env k d) env 10).1.items.keys)
            (m := (sweep (setRaw c env k d).expire env (setRaw c env k d).items).keys) (mClean_nodup ht.nodup env 10)
            (fun k' hk' => mem_keys_of_get_imp k' (fun hn => by rw [mClean_items, evictLoop_get, hn]; simp) hk')
          simpa using this
        exact hse
      have hcond : (setRaw c env k d).pile.length ≤ c.pile.length + 1 := by rw [hpl]; split <;> omega
      dsimp only
      omega
    · rename_i hc
      rw [hm] at hc
      refine ⟨ht, hfew, ?_⟩
      have h9 : (count (setRaw c env k d) : Int) < m := by
        simp only [count]; rw [hl]; omega
      show (setRaw c env k d).pile.length ≤ (max m 10).toNat - 1 + (G + 0)
      omega
  | setTTL k t =>
    have hpl : (setTTL c k t).pile = c.pile := by unfold setTTL; split <;> rfl
    have hlen : (setTTL c k t).items.length = c.items.length :=
      length_eq_of_keys (step_nodup h.tracked.nodup env (.setTTL k t)) h.tracked.nodup (fun k' => setTTL_keys c k k' t)
    refine ⟨h.tracked.step env (.setTTL k t), ?_, ?_⟩
    · simp only [Cache.step, hpl, count, hlen, dropCount]; exact h.few
    · simp only [Cache.step, hpl, dropCount]; exact h.bound
  | get k =>
    simp only [Cache.step, dropCount]
    cases hc : c.items.get k with
    | none => simpa [get, hc] using h
    | some e =>
      by_cases hi : invalid c env k e = true
      · simp only [get, hc, hi, if_true]; exact h.del k
      · have hmem := h.tracked.mem_of_get hc
        have ht := h.tracked.step env (.get k)
        simp only [Cache.step, get, hc, hi, Bool.false_eq_true, if_false, removeFromPile_eq_erase] at ht ⊢
        refine ⟨ht, ?_, ?_⟩
        · have := h.few
          simp only [count] at this ⊢
          rw [length_erase_append hmem, AMap.length_set, if_pos ((AMap.mem_keys_iff _ _).2 ⟨e, hc⟩)]
          exact this
        · rw [length_erase_append hmem]; exact h.bound
  | del k => exact h.del k
  | count => exact h
  | clean p => exact h.mClean env hp
  | verify =>
    simp only [Cache.step, dropCount, verify_fst]
    split
    · exact Surplus.verifyLoop env _ (h.mClean env (by omega)) _
    · exact h.mClean env (by omega)
  | flush =>
    have h1 := h.few
    have h2 := h.bound
    refine ⟨h.tracked.step env .flush, ?_, ?_⟩
    · simp only [Cache.step, flush, dropCount, count, List.length_nil] at h1 ⊢; omega
    · simp only [Cache.step, flush, dropCount, count] at h2 ⊢; omega
  | setMaxitems m => exact absurd hk id
  | setExpire e => exact ⟨⟨h.tracked.nodup, h.tracked.sub⟩, h.few, h.bound⟩
  | setValidator b => exact ⟨⟨h.tracked.nodup, h.tracked.sub⟩, h.few, h.bound⟩

theorem Surplus.run {m : Int} (hpos : 0 < m) : ∀ (hist : List (Env × Op D)) {c : Cache D} {G : Nat}, c.maxitems = m →
    Surplus c ((max m 10).toNat - 1) G → (∀ p ∈ hist, KeepsLimit p.2 ∧ PercOk p.2) →
    Surplus (run c hist).1 ((max m 10).toNat - 1) (G + dropTotal c hist) := by
  intro hist
  induction hist with
  | nil => intro c G _ h _; exact h
  | cons p hist ih =>
    intro c G hm h hk
    obtain ⟨env, op⟩ := p
    have h0 := hk (env, op) (by simp)
    have h1 := h.step hm hpos env op h0.1 h0.2
    have h2 := ih ((step_maxitems_eq env op h0.1).trans hm) h1 (fun p hp => hk p (by simp [hp]))
    simp only [dropTotal]
    rw [← Nat.add_assoc]
    exact h2

/-! ## Order -/

/-- The split of a list at the last occurrence is unique. -/
theorem last_split_unique {A A' B B' : List Str} {k : Str} (h : A ++ k :: B = A' ++ k :: B') (hB : k ∉ B) (hB' : k ∉ B') :
    A = A' ∧ B = B' := by
  rw [List.append_eq_append_iff] at h
  rcases h with ⟨C, h1, h2⟩ | ⟨C, h1, h2⟩
  · cases C with
    | nil =>
      simp only [List.append_nil] at h1
      simp only [List.nil_append, List.cons.injEq, true_and] at h2
      exact ⟨h1.symm, h2⟩
    | cons x C =>
      simp only [List.cons_append, List.cons.injEq] at h2
      exact absurd (by rw [h2.2]; simp) hB
  · cases C with
    | nil =>
      simp only [List.append_nil] at h1
      simp only [List.nil_append, List.cons.injEq, true_and] at h2
      exact ⟨h1, h2.symm⟩
    | cons x C =>
      simp only [List.cons_append, List.cons.injEq] at h2
      exact absurd (by rw [h2.2]; simp) hB'

theorem last_split {l : List Str} {k : Str} (h : k ∈ l) : ∃ A B, l = A ++ k :: B ∧ k ∉ B := by
  induction l with
  | nil => simp at h
  | cons x l ih =>
    by_cases hk : k ∈ l
    · obtain ⟨A, B, h1, h2⟩ := ih hk
      exact ⟨x :: A, B, by rw [h1]; rfl, h2⟩
    · have : k = x := by simpa [hk] using h
      subst this
      exact ⟨[], l, rfl, hk⟩

/-- `k` stands before the last occurrence of `k'`. -/
def Before (l : List Str) (k k' : Str) : Prop := ∀ A B, l = A ++ k' :: B → k' ∉ B → k ∈ A

theorem Before.erase {l : List Str} {k k' k0 : Str} (h : Before l k k') (h1 : k ≠ k0) (h2 : k' ≠ k0) (hm : k' ∈ l) :
    Before (l.erase k0) k k' := by
  intro A' B' he hB'
  obtain ⟨A, B, hl, hB⟩ := last_split hm
  have hA := h A B hl hB
  rw [hl] at he
  by_cases hk : k0 ∈ A
  · rw [List.erase_append_left _ hk] at he
    have := (last_split_unique he hB hB').1
    rw [← this]
    exact (List.mem_erase_of_ne h1).2 hA
  · rw [List.erase_append_right _ hk, List.erase_cons_tail (by simpa using h2)] at he
    have := (last_split_unique he (fun hx => hB (List.mem_of_mem_erase hx)) hB').1
    rw [← this]
    exact hA

theorem Before.append {l : List Str} {k k' k0 : Str} (h : Before l k k') (h2 : k' ≠ k0) : Before (l ++ [k0]) k k' := by
  intro A' B' he hB'
  rcases List.eq_nil_or_concat B' with rfl | ⟨B, x, rfl⟩
  · have h3 : l ++ [k0] = A' ++ [k'] := he
    have := (List.append_inj' h3 rfl).2
    simp only [List.cons.injEq, and_true] at this
    exact absurd this.symm h2
  · have h3 : l ++ [k0] = (A' ++ k' :: B) ++ [x] := by rw [he]; simp
    have h4 := List.append_inj' h3 rfl
    exact h A' B h4.1 (fun hx => hB' (by simp [hx]))

theorem before_last {l : List Str} {k k0 : Str} (h : k ∈ l) : Before (l ++ [k0]) k k0 := by
  intro A B he hB
  have h3 : l ++ k0 :: [] = A ++ k0 :: B := he
  rw [← (last_split_unique h3 (by simp) hB).1]
  exact h

theorem Before.drop {l : List Str} {k k' : Str} (h : Before l k k') (n : Nat) (hk : k ∉ l.take n) : Before (l.drop n) k k' := by
  intro A B he hB
  have : l = (l.take n ++ A) ++ k' :: B := by
    rw [List.append_assoc, ← he, List.take_append_drop]
  have := h _ B this hB
  rw [List.mem_append] at this
  exact this.resolve_left hk

/-- The pile of a cache whose uses are `u`; `X` are the keys of which an entry was dropped. -/
structure Ghost (c : Cache D) (u : List Str) (X : Str → Prop) : Prop where
  tracked : Tracked c
  single : ∀ k, ¬ X k → c.pile.count k ≤ 1 ∧ (k ∈ c.pile → Present c k)
  order : ∀ k k', Present c k → Present c k' → age u k' < age u k → Before c.pile k k'

theorem Ghost.new (m e : Int) : Ghost (new m e : Cache D) [] (fun _ => False) :=
  ⟨Tracked.new m e, fun k _ => by simp [Cache.new], fun k k' h => by obtain ⟨e, he⟩ := h; simp [Cache.new] at he⟩

theorem Ghost.mono {c : Cache D} {u : List Str} {X X' : Str → Prop} (h : Ghost c u X) (hx : ∀ k, X k → X' k) : Ghost c u X' :=
  ⟨h.tracked, fun k hk => h.single k (fun hX => hk (hx k hX)), h.order⟩

theorem Tracked.mem {c : Cache D} (h : Tracked c) {k : Str} (hk : Present c k) : k ∈ c.pile := by
  obtain ⟨e, he⟩ := hk; exact h.mem_of_get he

/-- The same pile and the same present keys. -/
theorem Ghost.congr {c c' : Cache D} {u : List Str} {X : Str → Prop} (h : Ghost c u X) (ht : Tracked c') (hp : c'.pile = c.pile)
    (hk : ∀ k, Present c' k ↔ Present c k) : Ghost c' u X := by
  refine ⟨ht, ?_, ?_⟩
  · intro k hx; rw [hp, hk]; exact h.single k hx
  · intro k k' h1 h2 h3; rw [hp]; exact h.order k k' ((hk k).1 h1) ((hk k').1 h2) h3

theorem present_del {c : Cache D} {k k' : Str} : Present (del c k) k' ↔ k' ≠ k ∧ Present c k' := by
  unfold Present
  simp only [del, AMap.get_del]
  by_cases h : k' = k <;> simp [h]

theorem Ghost.del {c : Cache D} {u : List Str} {X : Str → Prop} (h : Ghost c u X) (k : Str) : Ghost (del c k) u X := by
  refine ⟨h.tracked.del k, ?_, ?_⟩
  · intro k' hx
    obtain ⟨h1, h2⟩ := h.single k' hx
    simp only [Cache.del, removeFromPile_eq_erase]
    refine ⟨Nat.le_trans ((List.erase_sublist).count_le _) h1, ?_⟩
    intro hm
    rw [show ({ c with items := c.items.del k, pile := c.pile.erase k } : Cache D) = Cache.del c k by
      simp [Cache.del, removeFromPile_eq_erase], present_del]
    refine ⟨?_, h2 (List.mem_of_mem_erase hm)⟩
    rintro rfl
    have h3 : 0 < (c.pile.erase k').count k' := List.count_pos_iff.2 hm
    rw [List.count_erase_self] at h3
    omega
  · intro k1 k2 h1 h2 h3
    rw [present_del] at h1 h2
    simp only [Cache.del, removeFromPile_eq_erase]
    exact (h.order k1 k2 h1.2 h2.2 h3).erase h1.1 h2.1 (h.tracked.mem h2.2)

theorem Ghost.verifyLoop (env : Env) {u : List Str} {X : Str → Prop} : ∀ (l : List (Str × Entry D)) {c : Cache D} (_ : Ghost c u X)
    (i : Int), Ghost (verifyLoop env l c i).1 u X := by
  intro l
  induction l with
  | nil => intro c h i; exact h
  | cons p l ih =>
    intro c h i
    obtain ⟨k, x⟩ := p
    simp only [Cache.verifyLoop]
    split
    · exact ih (h.del k) _
    · exact ih h _

theorem present_mClean {c : Cache D} (ht : Tracked c) (env : Env) (p : Int) (k : Str) :
    Present (mClean c env p).1 k ↔
      Present c k ∧ ¬ Expired c env k ∧ k ∉ c.pile.take (cleanNum (sweep c.expire env c.items).length p).toNat := by
  unfold Present Expired
  rw [mClean_get ht.nodup]
  by_cases hk : k ∈ c.pile.take (cleanNum (sweep c.expire env c.items).length p).toNat
  · simp [hk]
  · simp only [hk, if_false, not_false_eq_true, and_true]
    cases c.items.get k with
    | none => simp
    | some e =>
      by_cases hd : deadlinePassed c.expire e.ctime (env.clkAt k) <;> simp [hd]

theorem Ghost.mClean {c : Cache D} {u : List Str} {X : Str → Prop} (h : Ghost c u X) (env : Env) {p : Int} (hp : p ≤ 100) :
    Ghost (mClean c env p).1 u (fun k => X k ∨ Expired c env k) := by
  have hn := cleanNum_le (n := (sweep c.expire env c.items).length) hp
  have hs := sweep_length_le c.expire env c.items
  have hl := h.tracked.length_le
  have hpile := mClean_pile c env p
  dsimp only at hpile
  rw [if_pos (by omega)] at hpile
  refine ⟨h.tracked.mClean env p, ?_, ?_⟩
  · intro k hx
    simp only [not_or] at hx
    obtain ⟨h1, h2⟩ := h.single k hx.1
    rw [hpile]
    refine ⟨Nat.le_trans ((List.drop_sublist _ _).count_le _) h1, ?_⟩
    intro hm
    rw [present_mClean h.tracked]
    refine ⟨h2 (List.mem_of_mem_drop hm), hx.2, ?_⟩
    intro ht
    have h3 : 0 < (c.pile.take (cleanNum (sweep c.expire env c.items).length p).toNat).count k := List.count_pos_iff.2 ht
    have h4 : 0 < (c.pile.drop (cleanNum (sweep c.expire env c.items).length p).toNat).count k := List.count_pos_iff.2 hm
    have h5 := List.count_append (a := k) (l₁ := c.pile.take (cleanNum (sweep c.expire env c.items).length p).toNat)
      (l₂ := c.pile.drop (cleanNum (sweep c.expire env c.items).length p).toNat)
    rw [List.take_append_drop] at h5
    omega
  · intro k k' h1 h2 h3
    rw [present_mClean h.tracked] at h1 h2
    rw [hpile]
    exact (h.order k k' h1.1 h2.1 h3).drop _ h1.2.2

/-- A use of a present key: it goes to the end of the pile. -/
theorem Ghost.use {c c' : Cache D} {u : List Str} {X : Str → Prop} (h : Ghost c u X) (ht : Tracked c') {k0 : Str} (hk0 : Present c k0)
    (hp : c'.pile = c.pile.erase k0 ++ [k0]) (hk : ∀ k, Present c' k ↔ Present c k) : Ghost c' (u ++ [k0]) X := by
  refine ⟨ht, ?_, ?_⟩
  · intro k hx
    obtain ⟨h1, h2⟩ := h.single k hx
    rw [hp, hk]
    constructor
    · rw [List.count_append]
      by_cases he : k = k0
      · subst he
        rw [List.count_erase_self]
        have := List.count_pos_iff.2 (h.tracked.mem hk0)
        simp; omega
      · rw [List.count_erase_of_ne he]
        simp [Ne.symm he]; exact h1
    · intro hm
      rw [mem_use] at hm
      rcases hm with rfl | hm
      · exact hk0
      · exact h2 hm
  · intro k k' h1 h2 h3
    rw [hk] at h1 h2
    rw [hp]
    by_cases he' : k' = k0
    · subst he'
      by_cases he : k = k'
      · subst he; omega
      · exact before_last ((List.mem_erase_of_ne he).2 (h.tracked.mem h1))
    · have he : k ≠ k0 := by
        rintro rfl
        rw [age_concat_self] at h3; omega
      rw [age_concat_ne u he, age_concat_ne u he'] at h3
      exact ((h.order k k' h1 h2 (by omega)).erase he he' (h.tracked.mem h2)).append he'

/-- A new key. -/
theorem Ghost.add {c c' : Cache D} {u : List Str} {X : Str → Prop} (h : Ghost c u X) (ht : Tracked c') {k0 : Str} (hk0 : ¬ Present c k0)
    (hp : c'.pile = c.pile ++ [k0]) (hk : ∀ k, Present c' k ↔ k = k0 ∨ Present c k) : Ghost c' (u ++ [k0]) X := by
  refine ⟨ht, ?_, ?_⟩
  · intro k hx
    obtain ⟨h1, h2⟩ := h.single k hx
    rw [hp, hk]
    constructor
    · rw [List.count_append]
      by_cases he : k = k0
      · subst he
        have : c.pile.count k = 0 := List.count_eq_zero.2 (fun hm => hk0 (h2 hm))
        simp [this]
      · simp [Ne.symm he]; exact h1
    · intro hm
      simp only [List.mem_append, List.mem_singleton] at hm
      exact hm.elim (fun hm => Or.inr (h2 hm)) Or.inl
  · intro k k' h1 h2 h3
    rw [hk] at h1 h2
    rw [hp]
    by_cases he' : k' = k0
    · subst he'
      have he : k ≠ k' := by rintro rfl; omega
      exact before_last (h.tracked.mem (h1.resolve_left he))
    · have he : k ≠ k0 := by
        rintro rfl
        rw [age_concat_self] at h3; omega
      rw [age_concat_ne u he, age_concat_ne u he'] at h3
      exact (h.order k k' (h1.resolve_left he) (h2.resolve_left he') (by omega)).append he'

theorem present_setRaw {c : Cache D} {env : Env} {k0 k : Str} {d : D} : Present (setRaw c env k0 d) k ↔ k = k0 ∨ Present c k := by
  unfold Present
  simp only [setRaw, AMap.get_set]
  by_cases h : k = k0 <;> simp [h]

theorem Ghost.setRaw {c : Cache D} {u : List Str} {X : Str → Prop} (h : Ghost c u X) (env : Env) (k : Str) (d : D) :
    Ghost (setRaw c env k d) (u ++ [k]) X := by
  cases hk : c.items.get k with
  | none =>
    refine h.add (h.tracked.setRaw env k d) ?_ ?_ (fun _ => present_setRaw)
    · rintro ⟨e, he⟩; rw [hk] at he; simp at he
    · simp [Cache.setRaw, hk]
  | some e =>
    refine h.use (h.tracked.setRaw env k d) ⟨e, hk⟩ ?_ ?_
    · simp [Cache.setRaw, hk, removeFromPile_eq_erase]
    · intro k'
      rw [present_setRaw]
      constructor
      · rintro (rfl | h1)
        · exact ⟨e, hk⟩
        · exact h1
      · exact Or.inr

theorem expired_setRaw {c : Cache D} {env : Env} {k0 k : Str} {d : D} : Expired (setRaw c env k0 d) env k ↔
    (k = k0 ∧ deadlinePassed c.expire (env.clk 0) (env.clkAt k)) ∨ (k ≠ k0 ∧ Expired c env k) := by
  unfold Expired
  simp only [setRaw, AMap.get_set]
  by_cases h : k = k0 <;> simp [h]

theorem Ghost.step {c : Cache D} {u : List Str} {X : Str → Prop} (h : Ghost c u X) (env : Env) (op : Op D) (hp : PercOk op) :
    Ghost (step c env op).1 (u ++ uses [(op, (Cache.step c env op).2)]) (fun k => X k ∨ Drops c env k op) := by
  cases op with
  | set k d =>
    simp only [Cache.step, set_eq, uses]
    split
    · rename_i hc
      rw [setRaw_length] at hc
      refine ((h.setRaw env k d).mClean env (p := 10) (by omega)).mono ?_
      rintro k' (hx | hx)
      · exact Or.inl hx
      · exact Or.inr ⟨hc, expired_setRaw.1 hx⟩
    · exact (h.setRaw env k d).mono fun k' hx => Or.inl hx
  | setTTL k t =>
    simp only [uses, List.append_nil]
    have hpl : (setTTL c k t).pile = c.pile := by unfold setTTL; split <;> rfl
    refine (h.congr (h.tracked.step env (.setTTL k t)) hpl ?_).mono fun k' hx => Or.inl hx
    intro k'
    have := setTTL_keys c k k' t
    rw [AMap.mem_keys_iff, AMap.mem_keys_iff] at this
    exact this
  | get k =>
    refine Ghost.mono (X := X) ?_ fun k' hx => Or.inl hx
    simp only [Cache.step]
    cases hc : c.items.get k with
    | none => simpa [get, hc, uses] using h
    | some e =>
      by_cases hi : invalid c env k e = true
      · simp only [get, hc, hi, if_true, uses, List.append_nil]; exact h.del k
      · have ht := h.tracked.step env (.get k)
        simp only [Cache.step, get, hc, hi, Bool.false_eq_true, if_false, uses] at ht ⊢
        refine h.use ht ⟨e, hc⟩ (by simp [removeFromPile_eq_erase]) ?_
        intro k'
        simp only [Present, AMap.get_set]
        by_cases he : k' = k
        · subst he; simp [hc]
        · simp [he]
  | del k => simp only [uses, List.append_nil]; exact (h.del k).mono fun k' hx => Or.inl hx
  | count => simp only [uses, List.append_nil]; exact h.mono fun k' hx => Or.inl hx
  | clean p => simp only [uses, List.append_nil]; exact h.mClean env hp
  | verify =>
    simp only [Cache.step, uses, List.append_nil, verify_fst]
    split
    · exact Ghost.verifyLoop env _ (h.mClean env (by omega)) _
    · exact h.mClean env (by omega)
  | flush =>
    simp only [uses, List.append_nil]
    refine ⟨h.tracked.step env .flush, ?_, ?_⟩
    · intro k hx
      simp only [not_or, Drops] at hx
      obtain ⟨h1, h2⟩ := h.single k hx.1
      exact ⟨h1, fun hm => absurd (h2 hm) hx.2⟩
    · rintro k k' ⟨e, he⟩; simp [Cache.step, flush] at he
  | setMaxitems m =>
    simp only [uses, List.append_nil]
    exact (h.congr (c' := (Cache.step c env (.setMaxitems m)).1) ⟨h.tracked.nodup, h.tracked.sub⟩ rfl (fun _ => Iff.rfl)).mono fun k' hx => Or.inl hx
  | setExpire e =>
    simp only [uses, List.append_nil]
    exact (h.congr (c' := (Cache.step c env (.setExpire e)).1) ⟨h.tracked.nodup, h.tracked.sub⟩ rfl (fun _ => Iff.rfl)).mono fun k' hx => Or.inl hx
  | setValidator b =>
    simp only [uses, List.append_nil]
    exact (h.congr (c' := (Cache.step c env (.setValidator b)).1) ⟨h.tracked.nodup, h.tracked.sub⟩ rfl (fun _ => Iff.rfl)).mono fun k' hx => Or.inl hx

theorem Ghost.run : ∀ (hist : List (Env × Op D)) {c : Cache D} {u : List Str} {X : Str → Prop}, Ghost c u X →
    (∀ p ∈ hist, PercOk p.2) → Ghost (run c hist).1 (u ++ uses (trace c hist)) (fun k => X k ∨ EverDropped c k hist) := by
  intro hist
  induction hist with
  | nil =>
    intro c u X h _
    simp only [Cache.run, trace, uses, List.map_nil, List.zip_nil_left, List.append_nil, EverDropped, or_false]
    exact h
  | cons p hist ih =>
    intro c u X h hp
    obtain ⟨env, op⟩ := p
    have h1 := ih (h.step env op (hp (env, op) (by simp))) (fun p hp' => hp p (by simp [hp']))
    rw [List.append_assoc, ← uses_append] at h1
    rw [trace_cons]
    refine h1.mono ?_
    rintro k ((hx | hx) | hx)
    · exact Or.inl hx
    · exact Or.inr (Or.inl hx)
    · exact Or.inr (Or.inr hx)

/-- If the front of the pile reaches a key that stands there once, it has passed all keys used before. -/
theorem Ghost.take {c : Cache D} {u : List Str} {X : Str → Prop} (h : Ghost c u X) {k k' : Str} (hk : Present c k) (hk' : Present c k')
    (hage : age u k' < age u k) (hx : ¬ X k') {n : Nat} (ht : k' ∈ c.pile.take n) : k ∈ c.pile.take n := by
  obtain ⟨A, B, hl, hB⟩ := last_split (h.tracked.mem hk')
  have hA := h.order k k' hk hk' hage A B hl hB
  have hc := (h.single k' hx).1
  rw [hl] at ht hc ⊢
  rw [List.count_append, List.count_cons_self] at hc
  have hnA : k' ∉ A := List.count_eq_zero.1 (by omega)
  rw [List.take_append, List.mem_append] at ht ⊢
  rcases ht with ht | ht
  · exact absurd (List.mem_of_mem_take ht) hnA
  · left
    by_cases hn : A.length ≤ n
    · rw [List.take_of_length_le hn]; exact hA
    · rw [show n - A.length = 0 by omega] at ht
      simp at ht

theorem Ghost.mClean_lru {c : Cache D} {u : List Str} {X : Str → Prop} (h : Ghost c u X) (env : Env) (p : Int) {k k' : Str}
    (hk : Present c k) (hk' : Present c k') (hage : age u k' < age u k) (hx : ¬ X k') (he : ¬ Expired c env k')
    (hgone : ¬ Present (Cache.mClean c env p).1 k') : ¬ Present (Cache.mClean c env p).1 k := by
  rw [present_mClean h.tracked] at hgone ⊢
  have ht : k' ∈ c.pile.take (cleanNum (sweep c.expire env c.items).length p).toNat := by
    apply Classical.byContradiction
    intro hn
    exact hgone ⟨hk', he, hn⟩
  intro hp
  exact hp.2.2 (h.take hk hk' hage hx ht)

end Xcore.Cache
