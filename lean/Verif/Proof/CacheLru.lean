import Verif.Proof.CacheSim

/-! # The pile: no panic (Tracked), and recency order (Lru) -/

namespace Xcore.Cache

open Spec

variable {D : Type}

/-- Every present key is in the pile: holds in all histories. -/
structure Tracked (c : Cache D) : Prop where
  nodup : c.items.Nodup
  sub : ∀ k ∈ c.items.keys, k ∈ c.pile

theorem Tracked.new (m e : Int) : Tracked (new m e : Cache D) := ⟨AMap.nodup_nil, by simp [Cache.new]⟩

theorem Tracked.length_le {c : Cache D} (h : Tracked c) : c.items.length ≤ c.pile.length := by
  have := nodup_length_le h.nodup h.sub
  simpa using this

theorem sweep_length_le (e : Int) (env : Env) (items : AMap (Entry D)) : (sweep e env items).length ≤ items.length := by
  unfold sweep; split
  · exact List.length_filter_le _ _
  · exact Nat.le_refl _

theorem mem_keys_of_get_imp {V V' : Type} {m : AMap V} {m' : AMap V'} (k : Str)
    (h : m.get k = none → m'.get k = none) : k ∈ m'.keys → k ∈ m.keys := by
  intro hk
  have := mt (AMap.get_eq_none_iff m k).2
  by_cases hm : k ∈ m.keys
  · exact hm
  · have h1 := h ((AMap.get_eq_none_iff m k).2 hm)
    exact absurd hk ((AMap.get_eq_none_iff m' k).1 h1)

theorem Tracked.mClean {c : Cache D} (h : Tracked c) (env : Env) (p : Int) : Tracked (mClean c env p).1 := by
  refine ⟨mClean_nodup h.nodup env p, ?_⟩
  intro k hk
  have hk2 := hk
  rw [AMap.mem_keys_iff] at hk2
  obtain ⟨e, he⟩ := hk2
  rw [mClean_get h.nodup] at he
  have hmem : k ∈ c.pile := by
    apply h.sub
    rw [AMap.mem_keys_iff]
    split at he
    · simp at he
    · split at he
      · exact ⟨_, by assumption⟩
      · simp at he
  rw [mClean_pile]
  dsimp only
  split
  · split at he
    · simp at he
    · rename_i hnt
      have := List.take_append_drop (cleanNum (sweep c.expire env c.items).length p).toNat c.pile
      rw [← this, List.mem_append] at hmem
      rcases hmem with hm | hm
      · exact absurd hm hnt
      · exact hm
  · exact hmem

theorem Tracked.del {c : Cache D} (h : Tracked c) (k : Str) : Tracked (del c k) := by
  refine ⟨AMap.nodup_del h.nodup k, ?_⟩
  intro k' hk'
  simp only [Cache.del, AMap.mem_keys_del] at hk'
  simp only [Cache.del, removeFromPile_eq_erase]
  exact (List.mem_erase_of_ne hk'.1).2 (h.sub _ hk'.2)

theorem Tracked.setRaw {c : Cache D} (h : Tracked c) (env : Env) (k : Str) (d : D) : Tracked (setRaw c env k d) := by
  refine ⟨AMap.nodup_set h.nodup _ _, ?_⟩
  intro k' hk'
  simp only [Cache.setRaw, AMap.mem_keys_set] at hk'
  simp only [Cache.setRaw, removeFromPile_eq_erase, List.mem_append, List.mem_singleton]
  by_cases hk : k' = k
  · exact Or.inr hk
  · left
    have := h.sub _ (hk'.resolve_left hk)
    split
    · exact (List.mem_erase_of_ne hk).2 this
    · exact this

theorem Tracked.verifyLoop (env : Env) : ∀ (l : List (Str × Entry D)) {c : Cache D} (_ : Tracked c) (i : Int),
    Tracked (verifyLoop env l c i).1 := by
  intro l
  induction l with
  | nil => intro c h i; exact h
  | cons p l ih =>
    intro c h i
    obtain ⟨k, x⟩ := p
    simp only [Cache.verifyLoop]
    split
    · exact ih (h.del k) _
    · exact ih h _

theorem Tracked.step {c : Cache D} (h : Tracked c) (env : Env) (op : Op D) : Tracked (step c env op).1 := by
  cases op with
  | set k d =>
    simp only [Cache.step, set_eq]
    split
    · exact (h.setRaw env k d).mClean env 10
    · exact h.setRaw env k d
  | setTTL k t =>
    refine ⟨step_nodup h.nodup env (.setTTL k t), ?_⟩
    intro k' hk'
    have hp : (setTTL c k t).pile = c.pile := by unfold setTTL; split <;> rfl
    simp only [Cache.step, hp]
    apply h.sub
    refine mem_keys_of_get_imp k' ?_ hk'
    intro hn; simp [Cache.step, setTTL_get, hn]
  | get k =>
    refine ⟨step_nodup h.nodup env (.get k), ?_⟩
    intro k' hk'
    simp only [Cache.step] at hk' ⊢
    have hk0 : k' ∈ c.pile := by
      apply h.sub
      refine mem_keys_of_get_imp k' ?_ hk'
      intro hn; simp [get_items, hn]
    cases hc : c.items.get k with
    | none => simp only [get, hc]; exact hk0
    | some e =>
      simp only [get, hc] at hk' ⊢
      by_cases hi : invalid c env k e = true
      · rw [if_pos hi] at hk' ⊢
        exact (h.del k).sub _ hk'
      · rw [if_neg hi]
        simp only [removeFromPile_eq_erase, List.mem_append, List.mem_singleton]
        by_cases hk : k' = k
        · exact Or.inr hk
        · exact Or.inl ((List.mem_erase_of_ne hk).2 hk0)
  | del k => exact h.del k
  | count => exact h
  | clean p => exact h.mClean env p
  | verify =>
    simp only [Cache.step, verify_fst]
    split
    · exact Tracked.verifyLoop env _ (h.mClean env 0) _
    · exact h.mClean env 0
  | flush => exact ⟨AMap.nodup_nil, by simp [Cache.step, flush]⟩
  | setMaxitems m => exact ⟨h.nodup, h.sub⟩
  | setExpire e => exact ⟨h.nodup, h.sub⟩
  | setValidator b => exact ⟨h.nodup, h.sub⟩

theorem Tracked.run {c : Cache D} (h : Tracked c) (hist : List (Env × Op D)) : Tracked (run c hist).1 := by
  induction hist generalizing c with
  | nil => exact h
  | cons p hist ih => obtain ⟨env, op⟩ := p; exact ih (h.step env op)

theorem mClean_ok {c : Cache D} (h : Tracked c) (env : Env) {p : Int} (hp : p ≤ 100) :
    (mClean c env p).2 = some ((cleanNum (sweep c.expire env c.items).length p).toNat : Int) := by
  rw [mClean_snd]
  dsimp only
  rw [if_pos]
  have := cleanNum_le (n := (sweep c.expire env c.items).length) hp
  have := sweep_length_le c.expire env c.items
  have := h.length_le
  omega

theorem verify_ok (c : Cache D) (env : Env) : (verify c env).2 ≠ none := by
  have h0 : (clean c env 0).2 = some 0 := by
    simp only [clean, mClean_snd, cleanNum_nonpos (Int.le_refl 0)]; simp
  unfold verify
  split
  · rename_i h; rw [h] at h0; simp at h0
  · split <;> simp

theorem step_panicked {c : Cache D} (h : Tracked c) (env : Env) (op : Op D) :
    (step c env op).2 = .panicked → ∃ p, op = .clean p ∧ 100 < p := by
  intro hp
  cases op with
  | set k d =>
    exfalso
    simp only [step, set_eq] at hp
    split at hp
    · simp [mClean_ok (h.setRaw env k d) env (p := 10) (by omega)] at hp
    · simp at hp
  | clean p =>
    refine ⟨p, rfl, ?_⟩
    by_cases hle : p ≤ 100
    · simp [step, clean, mClean_ok h env hle] at hp
    · omega
  | verify =>
    exfalso
    have := verify_ok c env
    simp only [step] at hp
    split at hp
    · simp at hp
    · exact this (by assumption)
  | setTTL k t => simp [step] at hp
  | get k => simp [step] at hp
  | del k => simp [step] at hp
  | count => simp [step] at hp
  | flush => simp [step] at hp
  | setMaxitems m => simp [step] at hp
  | setExpire e => simp [step] at hp
  | setValidator b => simp [step] at hp

/-! ## Recency -/

/-- The pile lists exactly the present keys, once each, oldest use first. -/
structure Lru (c : Cache D) (u : List Str) : Prop where
  nodup : c.items.Nodup
  pnodup : c.pile.Nodup
  mem : ∀ k, k ∈ c.pile ↔ k ∈ c.items.keys
  sorted : c.pile.Pairwise (fun a b => age u b < age u a)

theorem Lru.tracked {c : Cache D} {u : List Str} (h : Lru c u) : Tracked c := ⟨h.nodup, fun k hk => (h.mem k).2 hk⟩

theorem Lru.length {c : Cache D} {u : List Str} (h : Lru c u) : c.pile.length = c.items.length := by
  have := (nodup_perm h.pnodup h.nodup h.mem).length_eq
  simpa using this

theorem Lru.new (m e : Int) : Lru (new m e : Cache D) [] :=
  ⟨AMap.nodup_nil, by simp [Cache.new], by simp [Cache.new], by simp [Cache.new]⟩

theorem age_concat_self (u : List Str) (k : Str) : age (u ++ [k]) k = 0 := by simp [age]

theorem age_concat_ne (u : List Str) {k k' : Str} (h : k' ≠ k) : age (u ++ [k]) k' = age u k' + 1 := by
  have : ¬ (k == k') = true := by simp; exact fun e => h e.symm
  simp only [age, List.reverse_append, List.reverse_cons, List.reverse_nil, List.nil_append, List.singleton_append,
    List.idxOf_cons, this]
  rfl

theorem sweep_fresh {c : Cache D} {env : Env} (hn : c.items.Nodup) (hf : Fresh c env) : sweep c.expire env c.items = c.items := by
  unfold sweep
  split
  · rename_i he
    rw [List.filter_eq_self]
    intro p hp
    have := hf p.1 p.2 (AMap.get_of_mem hn hp)
    simp only [deadlinePassed, not_and] at this
    simpa [past] using this he
  · rfl

theorem fresh_setRaw {c : Cache D} {env : Env} {k : Str} {d : D} (h1 : ¬ deadlinePassed c.expire (env.clk 0) (env.clkAt k))
    (h2 : ∀ k' e, k' ≠ k → c.items.get k' = some e → ¬ deadlinePassed c.expire e.ctime (env.clkAt k')) : Fresh (setRaw c env k d) env := by
  intro k' e he
  simp only [setRaw, AMap.get_set] at he
  split at he
  · rename_i hk
    cases he
    rw [hk]
    exact h1
  · rename_i hk
    exact h2 k' e hk he

theorem sweep_zero (env : Env) (items : AMap (Entry D)) : sweep 0 env items = items := by simp [sweep]

/-- Moving a key to the end of the pile is a use. -/
theorem sorted_use {pile : List Str} {u : List Str} (hn : pile.Nodup)
    (hs : pile.Pairwise (fun a b => age u b < age u a)) (k : Str) :
    (pile.erase k ++ [k]).Pairwise (fun a b => age (u ++ [k]) b < age (u ++ [k]) a) := by
  rw [List.pairwise_append]
  refine ⟨?_, by simp, ?_⟩
  · have h1 := hs.sublist (List.erase_sublist (a := k))
    refine h1.imp_of_mem ?_
    intro a b ha hb hab
    have ha' := (hn.mem_erase_iff.1 ha).1
    have hb' := (hn.mem_erase_iff.1 hb).1
    rw [age_concat_ne u ha', age_concat_ne u hb']; omega
  · intro a ha b hb
    simp only [List.mem_singleton] at hb
    subst hb
    have ha' := (hn.mem_erase_iff.1 ha).1
    rw [age_concat_self, age_concat_ne u ha']; omega

theorem nodup_use {pile : List Str} (hn : pile.Nodup) (k : Str) : (pile.erase k ++ [k]).Nodup := by
  rw [List.nodup_append]
  refine ⟨hn.erase k, by simp, ?_⟩
  intro a ha b hb
  simp only [List.mem_singleton] at hb
  subst hb
  exact (hn.mem_erase_iff.1 ha).1

theorem mem_use {pile : List Str} (k k' : Str) : k' ∈ pile.erase k ++ [k] ↔ k' = k ∨ k' ∈ pile := by
  simp only [List.mem_append, List.mem_singleton]
  by_cases h : k' = k
  · simp [h]
  · simp [h, List.mem_erase_of_ne h]

theorem Lru.setRaw_pile {c : Cache D} {u : List Str} (h : Lru c u) (env : Env) (k : Str) (d : D) :
    (setRaw c env k d).pile = c.pile.erase k ++ [k] := by
  simp only [setRaw, removeFromPile_eq_erase]
  split
  · rfl
  · rename_i hn
    have : k ∉ c.pile := by
      rw [h.mem, AMap.mem_keys_iff]
      rintro ⟨e, he⟩; simp [he] at hn
    rw [List.erase_of_not_mem this]

theorem Lru.setRaw {c : Cache D} {u : List Str} (h : Lru c u) (env : Env) (k : Str) (d : D) :
    Lru (setRaw c env k d) (u ++ [k]) := by
  have hp := h.setRaw_pile env k d
  refine ⟨AMap.nodup_set h.nodup _ _, ?_, ?_, ?_⟩
  · rw [hp]; exact nodup_use h.pnodup k
  · intro k'
    rw [hp, mem_use, h.mem]
    simp only [Cache.setRaw, AMap.mem_keys_set]
  · rw [hp]; exact sorted_use h.pnodup h.sorted k

theorem Lru.num_le {c : Cache D} {u : List Str} (h : Lru c u) {p : Int} (hp : p ≤ 100) :
    (cleanNum c.items.length p).toNat ≤ c.pile.length := by
  rw [h.length]; exact cleanNum_le hp

theorem Lru.mClean_pile {c : Cache D} {u : List Str} (h : Lru c u) {env : Env} (hf : Fresh c env) {p : Int} (hp : p ≤ 100) :
    (mClean c env p).1.pile = c.pile.drop (cleanNum c.items.length p).toNat := by
  rw [Cache.mClean_pile, sweep_fresh h.nodup hf]
  dsimp only
  rw [if_pos (h.num_le hp)]

theorem Lru.mClean_get {c : Cache D} {u : List Str} (h : Lru c u) {env : Env} (hf : Fresh c env) (p : Int) (k : Str) :
    (mClean c env p).1.items.get k =
      if k ∈ c.pile.take (cleanNum c.items.length p).toNat then none else c.items.get k := by
  rw [Cache.mClean_get h.nodup, sweep_fresh h.nodup hf]
  congr 1
  cases hk : c.items.get k with
  | none => rfl
  | some e => exact if_neg (hf k e hk)

theorem Lru.mClean {c : Cache D} {u : List Str} (h : Lru c u) {env : Env} (hf : Fresh c env) {p : Int} (hp : p ≤ 100) :
    Lru (mClean c env p).1 u := by
  have hpile := h.mClean_pile hf hp
  refine ⟨mClean_nodup h.nodup env p, ?_, ?_, ?_⟩
  · rw [hpile]; exact h.pnodup.sublist (List.drop_sublist _ _)
  · intro k
    rw [hpile, AMap.mem_keys_iff, h.mClean_get hf]
    have hsplit := List.take_append_drop (cleanNum c.items.length p).toNat c.pile
    have hmem : k ∈ c.pile ↔ k ∈ c.pile.take (cleanNum c.items.length p).toNat ∨
        k ∈ c.pile.drop (cleanNum c.items.length p).toNat := by
      rw [← List.mem_append, hsplit]
    have hdis : k ∈ c.pile.take (cleanNum c.items.length p).toNat →
        k ∈ c.pile.drop (cleanNum c.items.length p).toNat → False := by
      have := h.pnodup
      rw [← hsplit, List.nodup_append] at this
      intro h1 h2
      exact this.2.2 k h1 k h2 rfl
    constructor
    · intro hd
      rw [if_neg (fun ht => hdis ht hd)]
      exact (AMap.mem_keys_iff _ _).1 ((h.mem k).1 (hmem.2 (Or.inr hd)))
    · rintro ⟨e, he⟩
      split at he
      · simp at he
      · rename_i hnt
        have := (h.mem k).2 ((AMap.mem_keys_iff _ _).2 ⟨e, he⟩)
        exact (hmem.1 this).resolve_left hnt
  · rw [hpile]; exact h.sorted.sublist (List.drop_sublist _ _)

/-- The clean removes exactly `num` entries. -/
theorem Lru.mClean_length {c : Cache D} {u : List Str} (h : Lru c u) {env : Env} (hf : Fresh c env) {p : Int} (hp : p ≤ 100) :
    (Cache.mClean c env p).1.items.length + (cleanNum c.items.length p).toNat = c.items.length := by
  have h1 := (h.mClean hf hp).length
  have h2 := h.mClean_pile hf hp
  have h3 := h.length
  have h4 := h.num_le hp
  rw [h2, List.length_drop] at h1
  omega

/-- Removed keys were used before kept ones. -/
theorem Lru.mClean_order {c : Cache D} {u : List Str} (h : Lru c u) {env : Env} (hf : Fresh c env) (p : Int) {k k' : Str}
    (hk : Present c k) (hr : ¬ Present (Cache.mClean c env p).1 k) (hk' : Present (Cache.mClean c env p).1 k') :
    age u k' < age u k := by
  have h1 : k ∈ c.pile.take (cleanNum c.items.length p).toNat := by
    by_cases hx : k ∈ c.pile.take (cleanNum c.items.length p).toNat
    · exact hx
    · exfalso; apply hr
      obtain ⟨e, he⟩ := hk
      exact ⟨e, by rw [h.mClean_get hf, if_neg hx]; exact he⟩
  obtain ⟨e', he'⟩ := hk'
  rw [h.mClean_get hf] at he'
  have h2 : k' ∈ c.pile.drop (cleanNum c.items.length p).toNat := by
    split at he'
    · simp at he'
    · rename_i hnt
      have := (h.mem k').2 ((AMap.mem_keys_iff _ _).2 ⟨e', he'⟩)
      rw [← List.take_append_drop (cleanNum c.items.length p).toNat c.pile, List.mem_append] at this
      exact this.resolve_left hnt
  have hs := h.sorted
  rw [← List.take_append_drop (cleanNum c.items.length p).toNat c.pile, List.pairwise_append] at hs
  exact hs.2.2 k h1 k' h2

theorem Lru.del {c : Cache D} {u : List Str} (h : Lru c u) (k : Str) : Lru (del c k) u := by
  refine ⟨AMap.nodup_del h.nodup k, ?_, ?_, ?_⟩
  · simp only [Cache.del, removeFromPile_eq_erase]; exact h.pnodup.erase k
  · intro k'
    simp only [Cache.del, removeFromPile_eq_erase, AMap.mem_keys_del]
    rw [h.pnodup.mem_erase_iff, h.mem]
  · simp only [Cache.del, removeFromPile_eq_erase]; exact h.sorted.sublist List.erase_sublist

theorem Lru.verifyLoop (env : Env) {u : List Str} : ∀ (l : List (Str × Entry D)) {c : Cache D} (_ : Lru c u) (i : Int),
    Lru (verifyLoop env l c i).1 u := by
  intro l
  induction l with
  | nil => intro c h i; exact h
  | cons p l ih =>
    intro c h i
    obtain ⟨k, x⟩ := p
    simp only [Cache.verifyLoop]
    split
    · exact ih (h.del k) _
    · exact ih h _

/-- Same keys, same pile: same recency. -/
theorem Lru.congr {c c' : Cache D} {u : List Str} (h : Lru c u) (hn : c'.items.Nodup)
    (hp : c'.pile = c.pile) (hk : ∀ k, k ∈ c'.items.keys ↔ k ∈ c.items.keys) : Lru c' u :=
  ⟨hn, by rw [hp]; exact h.pnodup, by intro k; rw [hp, h.mem, hk], by rw [hp]; exact h.sorted⟩

theorem setTTL_keys (c : Cache D) (k k' : Str) (t : Int) : k' ∈ (setTTL c k t).items.keys ↔ k' ∈ c.items.keys := by
  rw [AMap.mem_keys_iff, AMap.mem_keys_iff, setTTL_get]
  cases c.items.get k' with
  | none => simp
  | some e => dsimp only; split <;> simp

theorem uses_append (t1 t2 : List (Op D × Out D)) : uses (t1 ++ t2) = uses t1 ++ uses t2 := by
  induction t1 with
  | nil => rfl
  | cons p t1 ih =>
    obtain ⟨op, o⟩ := p
    cases op <;> try (simp [uses, ih]; done)
    cases o <;> try (simp [uses, ih]; done)
    rename_i d _
    cases d <;> simp [uses, ih]

theorem Lru.step {c : Cache D} {u : List Str} (h : Lru c u) (env : Env) (op : Op D) (hr : Orderly c env op) :
    Lru (step c env op).1 (u ++ uses [(op, (Cache.step c env op).2)]) := by
  cases op with
  | set k d =>
    simp only [Cache.step, set_eq, uses]
    split
    · rename_i hc
      rw [setRaw_length] at hc
      exact (h.setRaw env k d).mClean (fresh_setRaw (hr hc).1 (hr hc).2) (by omega)
    · exact h.setRaw env k d
  | setTTL k t =>
    simp only [uses, List.append_nil]
    have hp : (setTTL c k t).pile = c.pile := by unfold setTTL; split <;> rfl
    exact h.congr (step_nodup h.nodup env (.setTTL k t)) hp (fun k' => setTTL_keys c k k' t)
  | get k =>
    simp only [Cache.step]
    cases hc : c.items.get k with
    | none => simpa [get, hc, uses] using h
    | some e =>
      by_cases hi : invalid c env k e = true
      · simp only [get, hc, hi, if_true, uses, List.append_nil]; exact h.del k
      · simp only [get, hc, hi, Bool.false_eq_true, if_false, uses]
        refine ⟨AMap.nodup_set h.nodup _ _, ?_, ?_, ?_⟩
        · simp only [removeFromPile_eq_erase]; exact nodup_use h.pnodup k
        · intro k'
          simp only [removeFromPile_eq_erase]
          rw [mem_use, h.mem, AMap.mem_keys_set]
        · simp only [removeFromPile_eq_erase]; exact sorted_use h.pnodup h.sorted k
  | del k => simp only [uses, List.append_nil]; exact h.del k
  | count => simpa [uses, Cache.step] using h
  | clean p => simp only [uses, List.append_nil]; exact h.mClean hr.2 hr.1
  | verify =>
    simp only [Cache.step, uses, List.append_nil, verify_fst]
    split
    · exact Lru.verifyLoop env _ (h.mClean hr (by omega)) _
    · exact h.mClean hr (by omega)
  | flush =>
    simp only [uses, List.append_nil]
    have h0 : c.items = [] := List.length_eq_zero_iff.1 hr
    exact h.congr AMap.nodup_nil rfl (fun k => by simp [Cache.step, flush, h0])
  | setMaxitems m => simp only [uses, List.append_nil]; exact h.congr h.nodup rfl (fun _ => Iff.rfl)
  | setExpire e => simp only [uses, List.append_nil]; exact h.congr h.nodup rfl (fun _ => Iff.rfl)
  | setValidator b => simp only [uses, List.append_nil]; exact h.congr h.nodup rfl (fun _ => Iff.rfl)

theorem trace_cons (c : Cache D) (env : Env) (op : Op D) (hist : List (Env × Op D)) :
    trace c ((env, op) :: hist) = (op, (step c env op).2) :: trace (step c env op).1 hist := by
  simp [trace, run]

theorem Lru.run {c : Cache D} {u : List Str} (h : Lru c u) (hist : List (Env × Op D)) (hr : OrderlyRun c hist) :
    Lru (run c hist).1 (u ++ uses (trace c hist)) := by
  induction hist generalizing c u with
  | nil => simpa [Cache.run, trace, uses] using h
  | cons p hist ih =>
    obtain ⟨env, op⟩ := p
    have h1 := ih (h.step env op hr.1) hr.2
    rw [List.append_assoc, ← uses_append] at h1
    rw [trace_cons]
    exact h1

/-- The keys at the front of the pile are those with fewest older ones. -/
theorem Lru.mem_take {c : Cache D} {u : List Str} (h : Lru c u) {k : Str} (hk : Present c k) (n : Nat) :
    k ∈ c.pile.take n ↔ older c u k < n := by
  have hkp : k ∈ c.pile := (h.mem k).2 ((AMap.mem_keys_iff _ _).2 hk)
  have hperm : (c.items.keys.filter fun k' => decide (age u k < age u k')).length =
      (c.pile.filter fun k' => decide (age u k < age u k')).length :=
    ((nodup_perm h.pnodup h.nodup h.mem).filter _).length_eq.symm
  unfold older
  rw [hperm]
  obtain ⟨l, r, hlr⟩ := List.append_of_mem hkp
  have hs := h.sorted
  have hn := h.pnodup
  rw [hlr] at hs hn ⊢
  rw [List.pairwise_append] at hs
  have h1 : (l.filter fun k' => decide (age u k < age u k')) = l := by
    rw [List.filter_eq_self]
    intro a ha
    have := hs.2.2 a ha k (by simp)
    simpa using this
  have h2 : ((k :: r).filter fun k' => decide (age u k < age u k')) = [] := by
    rw [List.filter_eq_nil_iff]
    intro a ha
    simp only [List.mem_cons] at ha
    rcases ha with rfl | ha
    · simp
    · have := (List.pairwise_cons.1 hs.2.1).1 a ha
      simp; omega
  rw [List.filter_append, h1, h2, List.append_nil]
  constructor
  · intro hm
    by_cases hlt : l.length < n
    · exact hlt
    · exfalso
      rw [List.take_append_of_le_length (by omega)] at hm
      have := List.mem_of_mem_take hm
      rw [List.nodup_append] at hn
      exact hn.2.2 k this k (by simp) rfl
  · intro hlt
    rw [List.take_append]
    have : n - l.length = (n - l.length - 1) + 1 := by omega
    rw [this, List.take_succ_cons]
    simp

end Xcore.Cache
