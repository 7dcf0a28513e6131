import Verif.Model.CacheConc
import Verif.Proof.CacheMore

/-! # Invariants of the concurrently used cache -/

namespace Xcore.CacheConc

open Cache

variable {D : Type}

/-! ## mClean -/

/-- The items after the expiration loop. -/
def swept (s : Shared D) (env : Env) : AMap Nat :=
  if s.expire ≠ 0 then
    s.items.filter (fun p => match s.heap[p.2]? with
      | some e => !past e.ctime s.expire (env.clkAt p.1)
      | none => true)
  else s.items

theorem swept_nodup {s : Shared D} (h : s.items.Nodup) (env : Env) : (swept s env).Nodup := by
  unfold swept; split
  · exact AMap.nodup_filter h _
  · exact h

theorem swept_sub {s : Shared D} (h : s.items.Nodup) (env : Env) (k : Str) (id : Nat) (hg : (swept s env).get k = some id) :
    s.items.get k = some id := by
  unfold swept at hg
  split at hg
  · rw [AMap.get_filter h] at hg
    cases hi : s.items.get k with
    | none => simp [hi] at hg
    | some id' =>
      rw [hi] at hg
      simp only [Option.bind_some] at hg
      rw [Option.ite_none_right_eq_some] at hg
      exact hg.2
  · exact hg

theorem swept_length (s : Shared D) (env : Env) : (swept s env).length ≤ s.items.length := by
  unfold swept; split
  · exact List.length_filter_le _ _
  · exact Nat.le_refl _

theorem mClean_heap (s : Shared D) (env : Env) (p : Int) : (mClean s env p).1.heap = s.heap := by
  unfold mClean; dsimp only; split <;> rfl

theorem mClean_maxitems (s : Shared D) (env : Env) (p : Int) : (mClean s env p).1.maxitems = s.maxitems := by
  unfold mClean; dsimp only; split <;> rfl

theorem mClean_items (s : Shared D) (env : Env) (p : Int) :
    (mClean s env p).1.items = (evictLoop (cleanNum (swept s env).length p).toNat (swept s env) s.pile).1 := by
  have : mClean s env p = (match evictLoop (cleanNum (swept s env).length p).toNat (swept s env) s.pile with
    | (items', some pile') => ({ s with items := items', pile := pile' }, true)
    | (items', none) => ({ s with items := items' }, false)) := rfl
  rw [this]
  split <;> rename_i h <;> rw [h]

theorem mClean_flag (s : Shared D) (env : Env) (p : Int) :
    (mClean s env p).2 = decide ((cleanNum (swept s env).length p).toNat ≤ s.pile.length) := by
  have : mClean s env p = (match evictLoop (cleanNum (swept s env).length p).toNat (swept s env) s.pile with
    | (items', some pile') => ({ s with items := items', pile := pile' }, true)
    | (items', none) => ({ s with items := items' }, false)) := rfl
  rw [this]
  have hs := evictLoop_snd (cleanNum (swept s env).length p).toNat (swept s env) s.pile
  split <;> rename_i h <;> rw [h] at hs <;> dsimp only at hs <;> split at hs <;> simp_all

theorem mClean_pile (s : Shared D) (env : Env) (p : Int) :
    (mClean s env p).1.pile = if (cleanNum (swept s env).length p).toNat ≤ s.pile.length
      then s.pile.drop (cleanNum (swept s env).length p).toNat else s.pile := by
  have : mClean s env p = (match evictLoop (cleanNum (swept s env).length p).toNat (swept s env) s.pile with
    | (items', some pile') => ({ s with items := items', pile := pile' }, true)
    | (items', none) => ({ s with items := items' }, false)) := rfl
  rw [this]
  have hs := evictLoop_snd (cleanNum (swept s env).length p).toNat (swept s env) s.pile
  split <;> rename_i h <;> rw [h] at hs <;> dsimp only at hs <;> split at hs <;> simp_all <;> omega

theorem mClean_sub {s : Shared D} (h : s.items.Nodup) (env : Env) (p : Int) (k : Str) (id : Nat)
    (hg : (mClean s env p).1.items.get k = some id) : s.items.get k = some id := by
  rw [mClean_items, evictLoop_get] at hg
  split at hg
  · cases hg
  · exact swept_sub h env k id hg

/-! ## Tracking of keys for eviction -/

/-- Every present key is in the pile. -/
structure Tracked (s : Shared D) : Prop where
  nodup : s.items.Nodup
  sub : ∀ k ∈ s.items.keys, k ∈ s.pile

theorem Tracked.length_le {s : Shared D} (h : Tracked s) : s.items.length ≤ s.pile.length := by
  have := nodup_length_le h.nodup h.sub
  simpa using this

theorem Tracked.mClean {s : Shared D} (h : Tracked s) (env : Env) (p : Int) : Tracked (mClean s env p).1 := by
  refine ⟨?_, ?_⟩
  · rw [mClean_items]; exact evictLoop_nodup _ (swept_nodup h.nodup env)
  · intro k hk
    rw [AMap.mem_keys_iff] at hk
    obtain ⟨id, hid⟩ := hk
    have hmem : k ∈ s.pile := h.sub k ((AMap.mem_keys_iff _ _).2 ⟨id, mClean_sub h.nodup env p k id hid⟩)
    rw [mClean_items, evictLoop_get] at hid
    rw [mClean_pile]
    split
    · split at hid
      · cases hid
      · rename_i hnt
        rw [← List.take_append_drop (cleanNum (swept s env).length p).toNat s.pile, List.mem_append] at hmem
        exact hmem.resolve_left hnt
    · exact hmem

theorem Tracked.mClean_ok {s : Shared D} (h : Tracked s) (env : Env) {p : Int} (hp : p ≤ 100) : (CacheConc.mClean s env p).2 = true := by
  rw [mClean_flag]
  have h1 := cleanNum_le (n := (swept s env).length) hp
  have h2 := swept_length s env
  have h3 := h.length_le
  simp only [decide_eq_true_eq]; omega

theorem Tracked.del {s : Shared D} (h : Tracked s) (k : Str) : Tracked (del s k) := by
  refine ⟨AMap.nodup_del h.nodup k, ?_⟩
  intro k' hk'
  simp only [CacheConc.del, AMap.mem_keys_del] at hk'
  simp only [CacheConc.del, removeFromPile_eq_erase]
  exact (List.mem_erase_of_ne hk'.1).2 (h.sub _ hk'.2)

theorem Tracked.setRaw {s : Shared D} (h : Tracked s) (env : Env) (k : Str) (d : D) : Tracked (setRaw s env k d) := by
  refine ⟨AMap.nodup_set h.nodup _ _, ?_⟩
  intro k' hk'
  simp only [CacheConc.setRaw, AMap.mem_keys_set] at hk'
  simp only [CacheConc.setRaw, removeFromPile_eq_erase, List.mem_append, List.mem_singleton]
  by_cases hk : k' = k
  · exact Or.inr hk
  · left
    have := h.sub _ (hk'.resolve_left hk)
    split
    · exact (List.mem_erase_of_ne hk).2 this
    · exact this

theorem Tracked.set {s : Shared D} (h : Tracked s) (env : Env) (k : Str) (d : D) : Tracked (set s env k d).1 := by
  unfold CacheConc.set; dsimp only; split
  · exact (h.setRaw env k d).mClean env 10
  · exact h.setRaw env k d

theorem set_ok {s : Shared D} (h : Tracked s) (env : Env) (k : Str) (d : D) : (set s env k d).2 = true := by
  unfold CacheConc.set; dsimp only; split
  · exact (h.setRaw env k d).mClean_ok env (by omega)
  · rfl

/-! ## Provenance -/

/-- Entry `id` exists and its data was stored under `k` by some Set. -/
def Known (heap : List (Entry D)) (obs : List (Obs D)) (k : Str) (id : Nat) : Prop :=
  ∃ e, heap[id]? = some e ∧ .stored k e.data ∈ obs

/-- The entry a goroutine works on, if any. -/
def PC.holds : PC → Option (Str × Nat)
  | .loaded k id | .ttlOk k id | .valOk k id | .good k id | .touch k id | .doomed k id => some (k, id)
  | _ => none

/-- Data and creation time of existing entries never change. -/
def HeapExt (h h' : List (Entry D)) : Prop :=
  ∀ (id : Nat) (e : Entry D), h[id]? = some e → ∃ e' : Entry D, h'[id]? = some e' ∧ e'.data = e.data ∧ e'.ctime = e.ctime

theorem HeapExt.refl (h : List (Entry D)) : HeapExt h h := fun _ e he => ⟨e, he, rfl, rfl⟩

theorem HeapExt.append (h : List (Entry D)) (x : List (Entry D)) : HeapExt h (h ++ x) := by
  intro id e he
  refine ⟨e, ?_, rfl, rfl⟩
  have : id < h.length := by
    rcases Nat.lt_or_ge id h.length with h1 | h1
    · exact h1
    · rw [List.getElem?_eq_none h1] at he; cases he
  rw [List.getElem?_append_left this]; exact he

theorem HeapExt.modify (h : List (Entry D)) (id : Nat) (f : Entry D → Entry D) (hf : ∀ e, (f e).data = e.data ∧ (f e).ctime = e.ctime) :
    HeapExt h (modify h id f) := by
  intro j e he
  unfold CacheConc.modify
  by_cases hj : j = id
  · subst hj
    refine ⟨f e, ?_, hf e⟩
    rw [List.getElem?_modify, he]; simp
  · refine ⟨e, ?_, rfl, rfl⟩
    rw [List.getElem?_modify, he]
    simp only [Option.map_eq_map, Option.map_some, Option.some.injEq, ite_eq_right_iff]
    intro h; exact absurd h.symm hj

theorem Known.mono {h h' : List (Entry D)} {o o' : List (Obs D)} {k : Str} {id : Nat} (hk : Known h o k id)
    (hh : HeapExt h h') (ho : ∀ x ∈ o, x ∈ o') : Known h' o' k id := by
  obtain ⟨e, h1, h2⟩ := hk
  obtain ⟨e', h3, h4, _⟩ := hh id e h1
  exact ⟨e', h3, by rw [h4]; exact ho _ h2⟩

/-- The invariant. -/
structure Inv (st : St D) : Prop where
  tracked : Tracked st.sh
  items : ∀ k id, st.sh.items.get k = some id → Known st.sh.heap st.obs k id
  pcs : ∀ t k id, (st.pcs t).holds = some (k, id) → Known st.sh.heap st.obs k id

theorem Inv.init (m e : Int) : Inv (init m e : St D) := by
  refine ⟨⟨AMap.nodup_nil, by simp [CacheConc.init]⟩, ?_, ?_⟩
  · intro k id h; simp [CacheConc.init] at h
  · intro t k id h; simp [CacheConc.init, PC.holds] at h

/-- Monotonicity in one lemma: items may only shrink, pcs may only forget, heap and obs may only grow. -/
theorem Inv.mono {st st' : St D} (h : Inv st) (ht : Tracked st'.sh) (hh : HeapExt st.sh.heap st'.sh.heap)
    (ho : ∀ x ∈ st.obs, x ∈ st'.obs)
    (hi : ∀ k id, st'.sh.items.get k = some id → st.sh.items.get k = some id ∨ Known st'.sh.heap st'.obs k id)
    (hp : ∀ t k id, (st'.pcs t).holds = some (k, id) → (st.pcs t).holds = some (k, id) ∨ st.sh.items.get k = some id) : Inv st' := by
  refine ⟨ht, ?_, ?_⟩
  · intro k id hk
    rcases hi k id hk with h1 | h1
    · exact (h.items k id h1).mono hh ho
    · exact h1
  · intro t k id hk
    rcases hp t k id hk with h1 | h1
    · exact (h.pcs t k id h1).mono hh ho
    · exact (h.items k id h1).mono hh ho

theorem upd_holds {pcs : Nat → PC} {t : Nat} {p : PC} {r : Option (Str × Nat)} (hp : p.holds = r ∨ p.holds = none) (hr : (pcs t).holds = r) :
    ∀ t' k id, (upd pcs t p t').holds = some (k, id) → (pcs t').holds = some (k, id) := by
  intro t' k id h
  unfold upd at h
  split at h
  · rename_i e
    subst e
    rcases hp with hp | hp
    · rw [hr, ← hp]; exact h
    · rw [hp] at h; cases h
  · exact h

theorem Inv.apply {st st' : St D} (h : Inv st) (a : Act D) (ha : apply st a = some st') : Inv st' := by
  have hsame : ∀ k id, st.sh.items.get k = some id → st.sh.items.get k = some id ∨ Known st'.sh.heap st'.obs k id :=
    fun k id hk => Or.inl hk
  cases a with
  | set env k d =>
    simp only [CacheConc.apply, Option.some.injEq] at ha
    subst ha
    have hheap : (CacheConc.set st.sh env k d).1.heap = st.sh.heap ++ [{ ctime := env.clk 0, rtime := env.clk 1, ttl := 0, data := d }] := by
      unfold CacheConc.set; dsimp only; split
      · rw [mClean_heap]; rfl
      · rfl
    refine h.mono (h.tracked.set env k d) ?_ ?_ ?_ (fun t k id hk => Or.inl hk)
    · dsimp only; rw [hheap]; exact HeapExt.append _ _
    · intro x hx; simp [hx]
    · intro k' id hk'
      have h1 : (setRaw st.sh env k d).items.get k' = some id := by
        dsimp only at hk'
        unfold CacheConc.set at hk'
        dsimp only at hk'
        split at hk'
        · exact mClean_sub (h.tracked.setRaw env k d).nodup env 10 k' id hk'
        · exact hk'
      simp only [setRaw, AMap.get_set] at h1
      split at h1
      · rename_i hkk; subst hkk
        right
        simp only [Option.some.injEq] at h1
        subst h1
        exact ⟨{ ctime := env.clk 0, rtime := env.clk 1, ttl := 0, data := d }, by dsimp only; rw [hheap]; simp, by simp⟩
      · exact Or.inl h1
  | setTTL k ttl =>
    simp only [CacheConc.apply] at ha
    split at ha
    · simp only [Option.some.injEq] at ha
      subst ha
      exact h.mono ⟨h.tracked.nodup, h.tracked.sub⟩ (HeapExt.modify _ _ _ (fun _ => ⟨rfl, rfl⟩)) (fun _ hx => hx)
        (fun k id hk => Or.inl hk) (fun t k id hk => Or.inl hk)
    · simp only [Option.some.injEq] at ha
      subst ha; exact h
  | del k =>
    simp only [CacheConc.apply, Option.some.injEq] at ha
    subst ha
    refine h.mono (h.tracked.del k) (HeapExt.refl _) (fun _ hx => hx) ?_ (fun t k id hk => Or.inl hk)
    intro k' id hk'
    simp only [del, AMap.get_del] at hk'
    split at hk'
    · cases hk'
    · exact Or.inl hk'
  | clean env p =>
    simp only [CacheConc.apply, Option.some.injEq] at ha
    subst ha
    refine h.mono (h.tracked.mClean env p) ?_ (fun _ hx => by simp [hx]) ?_ (fun t k id hk => Or.inl hk)
    · dsimp only; rw [mClean_heap]; exact HeapExt.refl _
    · intro k' id hk'; exact Or.inl (mClean_sub h.tracked.nodup env p k' id hk')
  | flush =>
    simp only [CacheConc.apply, Option.some.injEq] at ha
    subst ha
    exact h.mono ⟨AMap.nodup_nil, by simp⟩ (HeapExt.refl _) (fun _ hx => hx) (fun k id hk => by simp at hk) (fun t k id hk => Or.inl hk)
  | setMaxitems m =>
    simp only [CacheConc.apply, Option.some.injEq] at ha
    subst ha
    exact h.mono ⟨h.tracked.nodup, h.tracked.sub⟩ (HeapExt.refl _) (fun _ hx => hx) (fun k id hk => Or.inl hk) (fun t k id hk => Or.inl hk)
  | setExpire m =>
    simp only [CacheConc.apply, Option.some.injEq] at ha
    subst ha
    exact h.mono ⟨h.tracked.nodup, h.tracked.sub⟩ (HeapExt.refl _) (fun _ hx => hx) (fun k id hk => Or.inl hk) (fun t k id hk => Or.inl hk)
  | setValidator m =>
    simp only [CacheConc.apply, Option.some.injEq] at ha
    subst ha
    exact h.mono ⟨h.tracked.nodup, h.tracked.sub⟩ (HeapExt.refl _) (fun _ hx => hx) (fun k id hk => Or.inl hk) (fun t k id hk => Or.inl hk)
  | getStart t k =>
    simp only [CacheConc.apply] at ha
    split at ha
    · split at ha
      · rename_i id hid
        simp only [Option.some.injEq] at ha
        subst ha
        refine h.mono h.tracked (HeapExt.refl _) (fun _ hx => hx) hsame ?_
        intro t' k' id' hk'
        simp only [upd] at hk'
        split at hk'
        · simp only [PC.holds, Option.some.injEq, Prod.mk.injEq] at hk'
          obtain ⟨rfl, rfl⟩ := hk'
          exact Or.inr hid
        · exact Or.inl hk'
      · simp only [Option.some.injEq] at ha
        subst ha
        exact h.mono h.tracked (HeapExt.refl _) (fun _ hx => by simp [hx]) hsame (fun t k id hk => Or.inl hk)
    · cases ha
  | checkTTL t now =>
    simp only [CacheConc.apply] at ha
    split at ha
    · rename_i k id hpc
      split at ha
      · split at ha
        · simp only [Option.some.injEq] at ha
          subst ha
          exact h.mono h.tracked (HeapExt.refl _) (fun _ hx => by simp [hx]) hsame
            (fun t k id hk => Or.inl (upd_holds (r := (st.pcs _).holds) (Or.inl (by rw [hpc]; rfl)) rfl t k id hk))
        · simp only [Option.some.injEq] at ha
          subst ha
          exact h.mono h.tracked (HeapExt.refl _) (fun _ hx => hx) hsame
            (fun t k id hk => Or.inl (upd_holds (r := (st.pcs _).holds) (Or.inl (by rw [hpc]; rfl)) rfl t k id hk))
      · cases ha
    · cases ha
  | checkVal t ok =>
    simp only [CacheConc.apply] at ha
    split at ha
    · rename_i k id hpc
      split at ha
      · simp only [Option.some.injEq] at ha
        subst ha
        exact h.mono h.tracked (HeapExt.refl _) (fun _ hx => by simp [hx]) hsame
          (fun t k id hk => Or.inl (upd_holds (r := (st.pcs _).holds) (Or.inl (by rw [hpc]; rfl)) rfl t k id hk))
      · simp only [Option.some.injEq] at ha
        subst ha
        exact h.mono h.tracked (HeapExt.refl _) (fun _ hx => hx) hsame
          (fun t k id hk => Or.inl (upd_holds (r := (st.pcs _).holds) (Or.inl (by rw [hpc]; rfl)) rfl t k id hk))
    · cases ha
  | checkExp t now =>
    simp only [CacheConc.apply] at ha
    split at ha
    · rename_i k id hpc
      split at ha
      · split at ha
        · simp only [Option.some.injEq] at ha
          subst ha
          exact h.mono h.tracked (HeapExt.refl _) (fun _ hx => by simp [hx]) hsame
            (fun t k id hk => Or.inl (upd_holds (r := (st.pcs _).holds) (Or.inl (by rw [hpc]; rfl)) rfl t k id hk))
        · simp only [Option.some.injEq] at ha
          subst ha
          exact h.mono h.tracked (HeapExt.refl _) (fun _ hx => hx) hsame
            (fun t k id hk => Or.inl (upd_holds (r := (st.pcs _).holds) (Or.inl (by rw [hpc]; rfl)) rfl t k id hk))
      · cases ha
    · cases ha
  | writeRtime t now =>
    simp only [CacheConc.apply] at ha
    split at ha
    · rename_i k id hpc
      simp only [Option.some.injEq] at ha
      subst ha
      exact h.mono ⟨h.tracked.nodup, h.tracked.sub⟩ (HeapExt.modify _ _ _ (fun _ => ⟨rfl, rfl⟩)) (fun _ hx => hx)
        (fun k id hk => Or.inl hk)
        (fun t k id hk => Or.inl (upd_holds (r := (st.pcs _).holds) (Or.inl (by rw [hpc]; rfl)) rfl t k id hk))
    · cases ha
  | getEnd t =>
    simp only [CacheConc.apply] at ha
    split at ha
    · rename_i k id hpc
      split at ha
      · simp only [Option.some.injEq] at ha
        subst ha
        refine h.mono ⟨h.tracked.nodup, ?_⟩ (HeapExt.refl _) (fun _ hx => by simp [hx]) (fun k id hk => Or.inl hk)
          (fun t k id hk => Or.inl (upd_holds (r := (st.pcs _).holds) (Or.inr rfl) rfl t k id hk))
        intro k' hk'
        simp only [removeFromPile_eq_erase]
        rw [mem_use]
        exact Or.inr (h.tracked.sub k' hk')
      · cases ha
    · cases ha
  | getDrop t =>
    simp only [CacheConc.apply] at ha
    split at ha
    · rename_i k id hpc
      simp only [Option.some.injEq] at ha
      subst ha
      refine h.mono (h.tracked.del k) (HeapExt.refl _) (fun _ hx => by simp [hx]) ?_
        (fun t k id hk => Or.inl (upd_holds (r := (st.pcs _).holds) (Or.inr rfl) rfl t k id hk))
      intro k' id hk'
      simp only [del, AMap.get_del] at hk'
      split at hk'
      · cases hk'
      · exact Or.inl hk'
    · cases ha
  | verifyStart t env =>
    simp only [CacheConc.apply] at ha
    split at ha
    · simp only [Option.some.injEq] at ha
      subst ha
      refine h.mono (h.tracked.mClean env 0) ?_ (fun _ hx => by simp [hx]) ?_
        (fun t k id hk => Or.inl (upd_holds (r := (st.pcs _).holds) (Or.inr rfl) rfl t k id hk))
      · dsimp only; rw [mClean_heap]; exact HeapExt.refl _
      · intro k' id hk'; exact Or.inl (mClean_sub h.tracked.nodup env 0 k' id hk')
    · cases ha
  | verifyPick t k ok =>
    simp only [CacheConc.apply] at ha
    split at ha
    · split at ha
      · split at ha
        · simp only [Option.some.injEq] at ha
          subst ha
          exact h.mono h.tracked (HeapExt.refl _) (fun _ hx => hx) hsame
            (fun t k id hk => Or.inl (upd_holds (r := (st.pcs _).holds) (Or.inr rfl) rfl t k id hk))
        · simp only [Option.some.injEq] at ha
          subst ha; exact h
      · cases ha
    · cases ha
  | verifyDel t =>
    simp only [CacheConc.apply] at ha
    split at ha
    · rename_i k m hpc
      simp only [Option.some.injEq] at ha
      subst ha
      refine h.mono (h.tracked.del k) (HeapExt.refl _) (fun _ hx => hx) ?_
        (fun t k id hk => Or.inl (upd_holds (r := (st.pcs _).holds) (Or.inr rfl) rfl t k id hk))
      intro k' id hk'
      simp only [del, AMap.get_del] at hk'
      split at hk'
      · cases hk'
      · exact Or.inl hk'
    · cases ha
  | verifyEnd t =>
    simp only [CacheConc.apply] at ha
    split at ha
    · simp only [Option.some.injEq] at ha
      subst ha
      exact h.mono h.tracked (HeapExt.refl _) (fun _ hx => hx) hsame
        (fun t k id hk => Or.inl (upd_holds (r := (st.pcs _).holds) (Or.inr rfl) rfl t k id hk))
    · cases ha

theorem Inv.run {st st' : St D} (h : Inv st) (as : List (Act D)) (hr : runActs st as = some st') : Inv st' := by
  induction as generalizing st with
  | nil => simp only [runActs, Option.some.injEq] at hr; subst hr; exact h
  | cons a as ih =>
    simp only [runActs] at hr
    split at hr
    · rename_i st1 h1
      exact ih (h.apply a h1) hr
    · cases hr

/-- What one step adds to the observations. -/
theorem apply_obs {st st' : St D} (h : Inv st) (a : Act D) (ha : apply st a = some st') :
    ∃ new, st'.obs = st.obs ++ new ∧
      (∀ t k v b, .returned t k (some v) b ∈ new → .stored k v ∈ st.obs ∧ b = false) ∧
      (∀ p, .panicked p ∈ new → 100 < p) := by
  cases a with
  | set env k d =>
    simp only [apply, set_ok h.tracked, Option.some.injEq] at ha
    subst ha
    exact ⟨_, rfl, by simp, by simp⟩
  | setTTL k ttl =>
    simp only [apply] at ha
    split at ha <;> (simp only [Option.some.injEq] at ha; subst ha; exact ⟨[], by simp, by simp, by simp⟩)
  | del k => simp only [apply, Option.some.injEq] at ha; subst ha; exact ⟨[], by simp, by simp, by simp⟩
  | clean env p =>
    simp only [apply, Option.some.injEq] at ha
    subst ha
    refine ⟨_, rfl, ?_, ?_⟩
    · intro t k v b hx; split at hx <;> simp at hx
    · intro q hq
      split at hq
      · simp at hq
      · rename_i hf
        simp only [List.mem_singleton, Obs.panicked.injEq] at hq
        subst hq
        by_cases hle : q ≤ 100
        · exact absurd (h.tracked.mClean_ok env hle) hf
        · omega
  | flush => simp only [apply, Option.some.injEq] at ha; subst ha; exact ⟨[], by simp, by simp, by simp⟩
  | setMaxitems m => simp only [apply, Option.some.injEq] at ha; subst ha; exact ⟨[], by simp, by simp, by simp⟩
  | setExpire m => simp only [apply, Option.some.injEq] at ha; subst ha; exact ⟨[], by simp, by simp, by simp⟩
  | setValidator m => simp only [apply, Option.some.injEq] at ha; subst ha; exact ⟨[], by simp, by simp, by simp⟩
  | getStart t k =>
    simp only [apply] at ha
    split at ha
    · split at ha <;> (simp only [Option.some.injEq] at ha; subst ha)
      · exact ⟨[], by simp, by simp, by simp⟩
      · exact ⟨_, rfl, by simp, by simp⟩
    · cases ha
  | checkTTL t now =>
    simp only [apply] at ha
    split at ha
    · split at ha
      · split at ha <;> (simp only [Option.some.injEq] at ha; subst ha)
        · exact ⟨_, rfl, by simp, by simp⟩
        · exact ⟨[], by simp, by simp, by simp⟩
      · cases ha
    · cases ha
  | checkVal t ok =>
    simp only [apply] at ha
    split at ha
    · split at ha <;> (simp only [Option.some.injEq] at ha; subst ha)
      · exact ⟨_, rfl, by simp, by simp⟩
      · exact ⟨[], by simp, by simp, by simp⟩
    · cases ha
  | checkExp t now =>
    simp only [apply] at ha
    split at ha
    · split at ha
      · split at ha <;> (simp only [Option.some.injEq] at ha; subst ha)
        · exact ⟨_, rfl, by simp, by simp⟩
        · exact ⟨[], by simp, by simp, by simp⟩
      · cases ha
    · cases ha
  | writeRtime t now =>
    simp only [apply] at ha
    split at ha
    · simp only [Option.some.injEq] at ha; subst ha; exact ⟨[], by simp, by simp, by simp⟩
    · cases ha
  | getEnd t =>
    simp only [apply] at ha
    split at ha
    · rename_i k id hpc
      split at ha
      · rename_i e he
        simp only [Option.some.injEq] at ha
        subst ha
        refine ⟨_, rfl, ?_, by simp⟩
        intro t' k' v b hx
        simp only [List.mem_singleton, Obs.returned.injEq, Option.some.injEq] at hx
        obtain ⟨_, rfl, rfl, rfl⟩ := hx
        obtain ⟨e', h1, h2⟩ := h.pcs t k' id (by rw [hpc]; rfl)
        rw [he] at h1
        cases h1
        exact ⟨h2, rfl⟩
      · cases ha
    · cases ha
  | getDrop t =>
    simp only [apply] at ha
    split at ha
    · simp only [Option.some.injEq] at ha; subst ha; exact ⟨_, rfl, by simp, by simp⟩
    · cases ha
  | verifyStart t env =>
    simp only [apply] at ha
    split at ha
    · rw [h.tracked.mClean_ok env (p := 0) (by omega)] at ha
      simp only [Option.some.injEq] at ha; subst ha; exact ⟨_, rfl, by simp, by simp⟩
    · cases ha
  | verifyPick t k ok =>
    simp only [apply] at ha
    split at ha
    · split at ha
      · split at ha <;> (simp only [Option.some.injEq] at ha; subst ha; exact ⟨[], by simp, by simp, by simp⟩)
      · cases ha
    · cases ha
  | verifyDel t =>
    simp only [apply] at ha
    split at ha
    · simp only [Option.some.injEq] at ha; subst ha; exact ⟨[], by simp, by simp, by simp⟩
    · cases ha
  | verifyEnd t =>
    simp only [apply] at ha
    split at ha
    · simp only [Option.some.injEq] at ha; subst ha; exact ⟨[], by simp, by simp, by simp⟩
    · cases ha

end Xcore.CacheConc
