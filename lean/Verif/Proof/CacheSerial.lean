import Verif.Proof.CacheConc
import Verif.Spec.CacheSerial

/-!
# Lemmas about calls on a cache that do not overlap
-/

namespace Xcore.CacheConc

open Cache Spec

variable {D : Type}

namespace Spec.SameItems

variable {E : Type} {heap : List E} {s : AMap Nat} {c : AMap E}

theorem length (h : SameItems heap s c) : c.length = s.length := by
  induction h with
  | nil => rfl
  | cons _ _ ih => simp [ih]

theorem keys (h : SameItems heap s c) : AMap.keys c = AMap.keys s := by
  induction h with
  | nil => rfl
  | cons _ _ ih => simp [ih]

theorem get_some (h : SameItems heap s c) {k : Str} {id : Nat} (hg : s.get k = some id) :
    ∃ e, c.get k = some e ∧ heap[id]? = some e := by
  induction h with
  | nil => cases hg
  | @cons k' id' e _ _ he _ ih =>
    simp only [AMap.get] at hg ⊢
    split at hg
    · rename_i hk
      simp only [Option.some.injEq] at hg; subst hg
      exact ⟨e, by simp [hk], he⟩
    · rename_i hk
      obtain ⟨e', h1, h2⟩ := ih hg
      exact ⟨e', by simp [hk, h1], h2⟩

theorem get_none (h : SameItems heap s c) {k : Str} (hg : s.get k = none) : c.get k = none := by
  rw [AMap.get_eq_none_iff] at hg ⊢
  rw [h.keys]; exact hg

theorem get_isSome (h : SameItems heap s c) (k : Str) : (c.get k).isSome = (s.get k).isSome := by
  cases hg : s.get k with
  | none => rw [h.get_none hg]; rfl
  | some id => obtain ⟨e, he, _⟩ := h.get_some hg; rw [he]; rfl

theorem del (h : SameItems heap s c) (k : Str) : SameItems heap (s.del k) (c.del k) := by
  induction h with
  | nil => exact .nil
  | cons he _ ih =>
    simp only [AMap.del]
    split
    · exact ih
    · exact .cons he ih

theorem filter (h : SameItems heap s c) {p : Str × Nat → Bool} {q : Str × E → Bool}
    (hpq : ∀ k id e, heap[id]? = some e → p (k, id) = q (k, e)) : SameItems heap (s.filter p) (c.filter q) := by
  induction h with
  | nil => exact .nil
  | @cons k id e _ _ he _ ih =>
    simp only [List.filter_cons, hpq k id e he]
    split
    · exact .cons he ih
    · exact ih

theorem grow (h : SameItems heap s c) (more : List E) : SameItems (heap ++ more) s c := by
  induction h with
  | nil => exact .nil
  | cons he _ ih => exact .cons (by rw [List.getElem?_append_left (List.getElem?_eq_some_iff.1 he).1]; exact he) ih

theorem set (h : SameItems heap s c) (k : Str) {id : Nat} {e : E} (hi : heap[id]? = some e) :
    SameItems heap (s.set k id) (c.set k e) := by
  induction h with
  | nil => exact .cons hi .nil
  | cons he hr ih =>
    simp only [AMap.set]
    split
    · exact .cons hi hr
    · exact .cons he ih

theorem untouched (h : SameItems heap s c) {id : Nat} (hid : id ∉ s.map Prod.snd) (f : E → E) :
    SameItems (heap.modify id f) s c := by
  induction h with
  | nil => exact .nil
  | @cons k id' e _ _ he _ ih =>
    simp only [List.map_cons, List.mem_cons, not_or] at hid
    exact .cons (by rw [List.getElem?_modify, he]; simp [hid.1]) (ih hid.2)

theorem modify (h : SameItems heap s c) (hn : (s.map Prod.snd).Nodup) {k : Str} {id : Nat} {e : E} (hg : s.get k = some id)
    (hc : c.get k = some e) (f : E → E) : SameItems (heap.modify id f) s (c.set k (f e)) := by
  induction h with
  | nil => cases hg
  | @cons k' id' e' s' c' he hr ih =>
    simp only [List.map_cons, List.nodup_cons] at hn
    simp only [AMap.get] at hg hc
    simp only [AMap.set]
    split
    · rename_i hk
      simp only [hk, if_true, Option.some.injEq] at hg hc
      subst hg; subst hc; subst hk
      exact .cons (by simp [he]) (hr.untouched hn.1 f)
    · rename_i hk
      rw [if_neg hk] at hg hc
      have hne : id ≠ id' := by
        intro h; subst h
        exact hn.1 (List.mem_map.2 ⟨_, AMap.mem_of_get hg, rfl⟩)
      exact .cons (by rw [List.getElem?_modify, he]; simp [hne]) (ih hn.2 hg hc)

theorem evict (n : Nat) (pile : List Str) : ∀ {s : AMap Nat} {c : AMap E}, SameItems heap s c →
    SameItems heap (evictLoop n s pile).1 (evictLoop n c pile).1 ∧ (evictLoop n s pile).2 = (evictLoop n c pile).2 := by
  induction n generalizing pile with
  | zero => intro s c h; exact ⟨h, rfl⟩
  | succ n ih =>
    intro s c h
    cases pile with
    | nil => exact ⟨h, rfl⟩
    | cons k pile => exact ih pile (h.del k)

end Spec.SameItems

/-- The shared memory holds the cache, keys are tracked, and no entry belongs to two keys. -/
structure Rep (s : Shared D) (c : Cache D) : Prop where
  holds : Holds s c
  tracked : Tracked s
  ids : (s.items.map Prod.snd).Nodup

theorem del_snd_sublist (m : AMap Nat) (k : Str) : ((m.del k).map Prod.snd).Sublist (m.map Prod.snd) := by
  induction m with
  | nil => exact .slnil
  | cons p m ih =>
    obtain ⟨k', id⟩ := p
    simp only [AMap.del]
    split
    · exact ih.cons _
    · exact ih.cons_cons _

theorem evict_snd_sublist (n : Nat) (pile : List Str) : ∀ m : AMap Nat,
    ((evictLoop n m pile).1.map Prod.snd).Sublist (m.map Prod.snd) := by
  induction n generalizing pile with
  | zero => intro m; exact List.Sublist.refl _
  | succ n ih =>
    intro m
    cases pile with
    | nil => exact List.Sublist.refl _
    | cons k pile => exact (ih pile _).trans (del_snd_sublist m k)

theorem ids_lt {E : Type} {heap : List E} {s : AMap Nat} {c : AMap E} (h : SameItems heap s c) :
    ∀ id ∈ s.map Prod.snd, id < heap.length := by
  induction h with
  | nil => simp
  | cons he _ ih =>
    intro id hid
    simp only [List.map_cons, List.mem_cons] at hid
    rcases hid with rfl | hid
    · exact (List.getElem?_eq_some_iff.1 he).1
    · exact ih id hid

theorem ids_set {m : AMap Nat} {n : Nat} (hn : (m.map Prod.snd).Nodup) (hl : ∀ id ∈ m.map Prod.snd, id < n) (k : Str) :
    ((m.set k n).map Prod.snd).Nodup := by
  have hmem : ∀ m : AMap Nat, ∀ id ∈ (m.set k n).map Prod.snd, id = n ∨ id ∈ m.map Prod.snd := by
    intro m
    induction m with
    | nil => intro id hid; simp [AMap.set] at hid; exact .inl hid
    | cons p m ih =>
      intro id hid
      obtain ⟨k', id'⟩ := p
      simp only [AMap.set] at hid
      split at hid
      · simp only [List.map_cons, List.mem_cons] at hid ⊢
        rcases hid with h | h
        · exact .inl h
        · exact .inr (.inr h)
      · simp only [List.map_cons, List.mem_cons] at hid ⊢
        rcases hid with h | h
        · exact .inr (.inl h)
        · rcases ih id h with h | h
          · exact .inl h
          · exact .inr (.inr h)
  induction m with
  | nil => simp [AMap.set]
  | cons p m ih =>
    obtain ⟨k', id'⟩ := p
    simp only [List.map_cons, List.nodup_cons] at hn
    simp only [List.map_cons, List.mem_cons, forall_eq_or_imp] at hl
    simp only [AMap.set]
    split
    · simp only [List.map_cons, List.nodup_cons]
      exact ⟨fun h => Nat.lt_irrefl _ (hl.2 _ h), hn.2⟩
    · simp only [List.map_cons, List.nodup_cons]
      refine ⟨fun h => ?_, ih hn.2 hl.2⟩
      rcases hmem m _ h with h | h
      · subst h; exact Nat.lt_irrefl _ hl.1
      · exact hn.1 h

theorem Rep.del {s : Shared D} {c : Cache D} (h : Rep s c) (k : Str) : Rep (del s k) (Cache.del c k) :=
  ⟨⟨h.holds.maxitems, h.holds.expire, h.holds.hasValidator, by simp [CacheConc.del, Cache.del, h.holds.pile], h.holds.items.del k⟩,
    h.tracked.del k, h.ids.sublist (del_snd_sublist _ _)⟩

theorem swept_same {s : Shared D} {c : Cache D} (h : Holds s c) (env : Env) :
    SameItems s.heap (swept s env) (sweep c.expire env c.items) := by
  unfold swept sweep
  rw [h.expire]
  split
  · refine h.items.filter ?_
    intro k id e he
    simp [he]
  · exact h.items

theorem Rep.mClean {s : Shared D} {c : Cache D} (h : Rep s c) (env : Env) (p : Int) :
    Rep (mClean s env p).1 (Cache.mClean c env p).1 ∧ (mClean s env p).2 = (Cache.mClean c env p).2.isSome := by
  have hsw := swept_same h.holds env
  have ht := h.tracked.mClean env p
  obtain ⟨h1, h2⟩ := hsw.evict (cleanNum (swept s env).length p).toNat s.pile
  have hids : (((evictLoop (cleanNum (swept s env).length p).toNat (swept s env) s.pile).1).map Prod.snd).Nodup := by
    refine List.Nodup.sublist (evict_snd_sublist _ _ _) ?_
    unfold swept
    split
    · exact List.Nodup.sublist ((List.filter_sublist).map _) h.ids
    · exact h.ids
  have hd : CacheConc.mClean s env p = match evictLoop (cleanNum (swept s env).length p).toNat (swept s env) s.pile with
      | (items', some pile') => ({ s with items := items', pile := pile' }, true)
      | (items', none) => ({ s with items := items' }, false) := rfl
  have hd' : Cache.mClean c env p = match evictLoop (cleanNum (swept s env).length p).toNat (sweep c.expire env c.items) s.pile with
      | (items', some pile') => ({ c with items := items', pile := pile' }, some ((cleanNum (swept s env).length p).toNat : Int))
      | (items', none) => ({ c with items := items' }, none) := by
    unfold Cache.mClean
    simp only [hsw.length, h.holds.pile]
    rfl
  rw [hd] at ht ⊢
  rw [hd']
  generalize cleanNum (swept s env).length p = n at *
  generalize evictLoop n.toNat (swept s env) s.pile = x at *
  generalize evictLoop n.toNat (sweep c.expire env c.items) s.pile = y at *
  obtain ⟨x1, x2⟩ := x
  obtain ⟨y1, y2⟩ := y
  dsimp only at h1 h2 hids
  subst h2
  cases x2 with
  | none => exact ⟨⟨⟨h.holds.maxitems, h.holds.expire, h.holds.hasValidator, h.holds.pile, h1⟩, ht, hids⟩, rfl⟩
  | some p => exact ⟨⟨⟨h.holds.maxitems, h.holds.expire, h.holds.hasValidator, rfl, h1⟩, ht, hids⟩, rfl⟩

theorem Rep.set {s : Shared D} {c : Cache D} (h : Rep s c) (env : Env) (k : Str) (d : D) :
    Rep (set s env k d).1 (Cache.set c env k d).1 ∧ (set s env k d).2 = (Cache.set c env k d).2 := by
  have hraw : Rep (setRaw s env k d)
      { c with items := c.items.set k { ctime := env.clk 0, rtime := env.clk 1, ttl := 0, data := d },
               pile := (if (c.items.get k).isSome then removeFromPile c.pile k else c.pile) ++ [k] } := by
    refine ⟨⟨h.holds.maxitems, h.holds.expire, h.holds.hasValidator, ?_, ?_⟩, h.tracked.setRaw env k d, ?_⟩
    · simp only [setRaw, h.holds.items.get_isSome, h.holds.pile]
    · exact (h.holds.items.grow _).set k (by simp [setRaw])
    · exact ids_set h.ids (ids_lt h.holds.items) k
  unfold CacheConc.set Cache.set
  dsimp only
  have hl := hraw.holds.items.length
  dsimp only at hl
  rw [hl]
  have hm : (setRaw s env k d).maxitems = c.maxitems := h.holds.maxitems.symm
  rw [hm]
  split
  · exact hraw.mClean env 10
  · exact ⟨hraw, rfl⟩

/-! ## One step of a schedule without overlap -/

theorem runActs_cons {st st' : St D} {a : Act D} {as : List (Act D)} (h : runActs st (a :: as) = some st') :
    ∃ st1, apply st a = some st1 ∧ runActs st1 as = some st' := by
  simp only [runActs] at h
  split at h
  · rename_i st1 h1; exact ⟨st1, h1, h⟩
  · cases h

/-- A goroutine inside a call takes the next step. -/
theorem advance {st st' : St D} {t : Nat} {as : List (Act D)} (hp : st.pcs t ≠ .idle) (hs : Serial st as)
    (hrun : runActs st as = some st') (hend : ∀ u, st'.pcs u = .idle) :
    ∃ a as' st1, as = a :: as' ∧ owner a = some t ∧ apply st a = some st1 ∧ Serial st1 as' ∧ runActs st1 as' = some st' := by
  cases as with
  | nil =>
    simp only [runActs, Option.some.injEq] at hrun; subst hrun
    exact absurd (hend t) hp
  | cons a as' =>
    obtain ⟨st1, h1, h2⟩ := runActs_cons hrun
    exact ⟨a, as', st1, rfl, hs.1 t hp, h1, hs.2 _ h1, h2⟩

theorem next_loaded {st st1 : St D} {t : Nat} {k : Str} {id : Nat} {a : Act D} (hp : st.pcs t = .loaded k id) (ho : owner a = some t)
    (ha : apply st a = some st1) : ∃ now, a = .checkTTL t now := by
  cases a <;> simp only [owner, reduceCtorEq, Option.some.injEq] at ho <;> subst ho <;> simp [apply, hp] at ha ⊢

theorem next_ttlOk {st st1 : St D} {t : Nat} {k : Str} {id : Nat} {a : Act D} (hp : st.pcs t = .ttlOk k id) (ho : owner a = some t)
    (ha : apply st a = some st1) : ∃ ok, a = .checkVal t ok := by
  cases a <;> simp only [owner, reduceCtorEq, Option.some.injEq] at ho <;> subst ho <;> simp [apply, hp] at ha ⊢

theorem next_valOk {st st1 : St D} {t : Nat} {k : Str} {id : Nat} {a : Act D} (hp : st.pcs t = .valOk k id) (ho : owner a = some t)
    (ha : apply st a = some st1) : ∃ now, a = .checkExp t now := by
  cases a <;> simp only [owner, reduceCtorEq, Option.some.injEq] at ho <;> subst ho <;> simp [apply, hp] at ha ⊢

theorem next_good {st st1 : St D} {t : Nat} {k : Str} {id : Nat} {a : Act D} (hp : st.pcs t = .good k id) (ho : owner a = some t)
    (ha : apply st a = some st1) : ∃ now, a = .writeRtime t now := by
  cases a <;> simp only [owner, reduceCtorEq, Option.some.injEq] at ho <;> subst ho <;> simp [apply, hp] at ha ⊢

theorem next_touch {st st1 : St D} {t : Nat} {k : Str} {id : Nat} {a : Act D} (hp : st.pcs t = .touch k id) (ho : owner a = some t)
    (ha : apply st a = some st1) : a = .getEnd t := by
  cases a <;> simp only [owner, reduceCtorEq, Option.some.injEq] at ho <;> subst ho <;> simp [apply, hp] at ha ⊢

theorem next_doomed {st st1 : St D} {t : Nat} {k : Str} {id : Nat} {a : Act D} (hp : st.pcs t = .doomed k id) (ho : owner a = some t)
    (ha : apply st a = some st1) : a = .getDrop t := by
  cases a <;> simp only [owner, reduceCtorEq, Option.some.injEq] at ho <;> subst ho <;> simp [apply, hp] at ha ⊢

theorem next_verifying {st st1 : St D} {t m : Nat} {a : Act D} (hp : st.pcs t = .verifying m) (ho : owner a = some t)
    (ha : apply st a = some st1) : (∃ k ok, a = .verifyPick t k ok) ∨ a = .verifyEnd t := by
  cases a <;> simp only [owner, reduceCtorEq, Option.some.injEq] at ho <;> subst ho <;> simp [apply, hp] at ha ⊢

theorem next_vdoomed {st st1 : St D} {t m : Nat} {k : Str} {a : Act D} (hp : st.pcs t = .vdoomed k m) (ho : owner a = some t)
    (ha : apply st a = some st1) : a = .verifyDel t := by
  cases a <;> simp only [owner, reduceCtorEq, Option.some.injEq] at ho <;> subst ho <;> simp [apply, hp] at ha ⊢

theorem upd_idle {pcs : Nat → PC} {t : Nat} {p : PC} (h : ∀ u, u ≠ t → pcs u = .idle) : ∀ u, u ≠ t → upd pcs t p u = .idle := by
  intro u hu; simp [upd, hu, h u hu]

theorem upd_all_idle {pcs : Nat → PC} {t : Nat} (h : ∀ u, u ≠ t → pcs u = .idle) : ∀ u, upd pcs t .idle u = .idle := by
  intro u
  by_cases hu : u = t
  · simp [upd, hu]
  · simp [upd, hu, h u hu]

theorem upd_at (pcs : Nat → PC) (t : Nat) (p : PC) : upd pcs t p t = p := by simp [upd]

/-- The outcome of a call that has been finished: what is left of the schedule, with the cache `c`, having said `outs`. -/
def Done (st st' : St D) (seen : List Str) (as : List (Act D)) (c : Cache D) (outs : List (Out D)) : Prop :=
  ∃ rest st1, rest.length ≤ as.length ∧ calls as = calls rest ∧ Serial st1 rest ∧ Thorough st1 seen rest ∧ runActs st1 rest = some st' ∧
    (∀ u, st1.pcs u = .idle) ∧ Rep st1.sh c ∧ st1.obs.filterMap said = st.obs.filterMap said ++ outs

theorem Done.step {st st2 st' : St D} {seen : List Str} {a : Act D} {as : List (Act D)} {c : Cache D} {outs : List (Out D)}
    (h : Done st2 st' seen as c outs) (hc : calls (a :: as) = calls as) (ho : st2.obs.filterMap said = st.obs.filterMap said) :
    Done st st' seen (a :: as) c outs := by
  obtain ⟨rest, st1, h1, h2, h3, h4, h5, h6, h7, h8⟩ := h
  exact ⟨rest, st1, Nat.le_succ_of_le h1, hc.trans h2, h3, h4, h5, h6, h7, by rw [h8, ho]⟩

/-! ## Get -/

theorem drop_block {st st' : St D} {c : Cache D} {t : Nat} {k : Str} {id : Nat} {seen : List Str} {as : List (Act D)} (hs : Serial st as)
    (hp : st.pcs t = .doomed k id) (hidle : ∀ u, u ≠ t → st.pcs u = .idle) (hr : Rep st.sh c) (hth : Thorough st seen as)
    (hrun : runActs st as = some st') (hend : ∀ u, st'.pcs u = .idle) :
    Done st st' seen as (Cache.del c k) [.got none true] := by
  obtain ⟨a, as', st1, rfl, ho, ha, hs1, hrun1⟩ := advance (by rw [hp]; nofun) hs hrun hend
  obtain rfl := next_doomed hp ho ha
  have hth1 := hth.2 _ ha
  simp only [apply, hp, Option.some.injEq] at ha
  subst ha
  exact ⟨as', _, Nat.le_succ _, rfl, hs1, hth1, hrun1, upd_all_idle hidle, hr.del k, by simp [said]⟩

theorem good_block {st st' : St D} {c : Cache D} {t : Nat} {k : Str} {id : Nat} {e : Entry D} {seen : List Str} {as : List (Act D)}
    (hs : Serial st as) (hp : st.pcs t = .good k id) (hid : st.sh.items.get k = some id) (he : st.sh.heap[id]? = some e) (hce : c.items.get k = some e)
    (hidle : ∀ u, u ≠ t → st.pcs u = .idle) (hr : Rep st.sh c) (hth : Thorough st seen as)
    (hrun : runActs st as = some st') (hend : ∀ u, st'.pcs u = .idle) :
    Done st st' seen as { c with items := c.items.set k { e with rtime := (readings as).clk 2 }, pile := removeFromPile c.pile k ++ [k] }
      [.got (some e.data) false] := by
  obtain ⟨a, as', st1, rfl, ho, ha, hs1, hrun1⟩ := advance (by rw [hp]; nofun) hs hrun hend
  obtain ⟨now, rfl⟩ := next_good hp ho ha
  have hth1 := hth.2 _ ha
  simp only [apply, hp, Option.some.injEq] at ha
  subst ha
  refine Done.step (a := .writeRtime t now) ?_ rfl rfl
  obtain ⟨a, as'', st2, rfl, ho, ha, hs2, hrun2⟩ := advance (t := t) (by simp [upd]) hs1 hrun1 hend
  obtain rfl := next_touch (k := k) (id := id) (by simp [upd]) ho ha
  have hth2 := hth1.2 _ ha
  have hget : (modify st.sh.heap id fun e => { e with rtime := now })[id]? = some { e with rtime := now } := by
    simp [modify, he]
  simp only [apply, upd_at, hget, Option.some.injEq] at ha
  subst ha
  refine ⟨as'', _, Nat.le_succ _, rfl, hs2, hth2, hrun2, upd_all_idle (upd_idle hidle), ?_, by simp [said]⟩
  have hclk : (readings (.writeRtime t now :: .getEnd t :: as'') : Env).clk 2 = now := by simp [readings, first]
  rw [hclk]
  refine ⟨⟨hr.holds.maxitems, hr.holds.expire, hr.holds.hasValidator, by simp [hr.holds.pile], ?_⟩, ?_, hr.ids⟩
  · exact hr.holds.items.modify hr.ids hid hce _
  · refine ⟨hr.tracked.nodup, fun k' hk' => ?_⟩
    have := hr.tracked.sub k' hk'
    simp only [removeFromPile_eq_erase, List.mem_append, List.mem_singleton]
    by_cases h : k' = k
    · exact .inr h
    · exact .inl ((List.mem_erase_of_ne h).2 this)

theorem get_block {st st' : St D} {c : Cache D} {t : Nat} {k : Str} {seen : List Str} {as : List (Act D)} (hidle : ∀ u, st.pcs u = .idle)
    (hr : Rep st.sh c) (hs : Serial st (.getStart t k :: as)) (hth : Thorough st seen (.getStart t k :: as))
    (hrun : runActs st (.getStart t k :: as) = some st') (hend : ∀ u, st'.pcs u = .idle) :
    Done st st' seen as (Cache.get c (readings as) k).1 [.got (Cache.get c (readings as) k).2.1 (Cache.get c (readings as) k).2.2] := by
  obtain ⟨st1, ha, hrun1⟩ := runActs_cons hrun
  have hs1 := hs.2 _ ha
  have hth1 := hth.2 _ ha
  simp only [apply, hidle t] at ha
  unfold Cache.get
  cases hid : st.sh.items.get k with
  | none =>
    simp only [hid, Option.some.injEq] at ha
    subst ha
    rw [hr.holds.items.get_none hid]
    exact ⟨as, _, Nat.le_refl _, rfl, hs1, hth1, hrun1, hidle, hr, by simp [said]⟩
  | some id =>
    obtain ⟨e, hce, he⟩ := hr.holds.items.get_some hid
    simp only [hid, Option.some.injEq] at ha
    subst ha
    rw [hce]
    dsimp only
    have hi1 : ∀ u, u ≠ t → upd st.pcs t (.loaded k id) u = .idle := upd_idle fun u _ => hidle u
    -- TTL
    obtain ⟨a, as1, st2, rfl, ho, ha, hs2, hrun2⟩ := advance (t := t) (by simp [upd]) hs1 hrun1 hend
    obtain ⟨now0, rfl⟩ := next_loaded (k := k) (id := id) (by simp [upd]) ho ha
    have hth2 := hth1.2 _ ha
    have hc0 : (readings (.checkTTL t now0 :: as1) : Env).clk 0 = now0 := by simp [readings, first]
    simp only [apply, upd_at, he] at ha
    split at ha
    · rename_i hbad
      simp only [Option.some.injEq] at ha; subst ha
      rw [if_pos (by unfold invalid; rw [hc0]; simp [hbad])]
      have hd := drop_block hs2 (upd_at _ _ _) (upd_idle hi1) hr hth2 hrun2 hend
      exact hd.step (a := .checkTTL t now0) rfl (by simp [said])
    rename_i hok0
    simp only [Option.some.injEq] at ha; subst ha
    -- validator
    obtain ⟨a, as2, st3, rfl, ho, ha, hs3, hrun3⟩ := advance (t := t) (by simp [upd]) hs2 hrun2 hend
    obtain ⟨ok, rfl⟩ := next_ttlOk (k := k) (id := id) (by simp [upd]) ho ha
    have hth3 := hth2.2 _ ha
    have hc1 : ∀ x, (readings (.checkTTL t now0 :: .checkVal t ok :: as2) : Env).valid k x = ok := by simp [readings, first]
    simp only [apply, upd_at] at ha
    split at ha
    · rename_i hbad
      simp only [Option.some.injEq] at ha; subst ha
      rw [if_pos (by unfold invalid; rw [hc1, hr.holds.hasValidator]; simp only [Bool.not_eq_true'] at hbad; simp [hbad])]
      have hd := drop_block hs3 (upd_at _ _ _) (upd_idle (upd_idle hi1)) hr hth3 hrun3 hend
      have hd := hd.step (st := st) (a := .checkVal t ok) rfl (by simp [said])
      exact hd.step (a := .checkTTL t now0) rfl rfl
    rename_i hok1
    simp only [Option.some.injEq] at ha; subst ha
    -- expiration
    obtain ⟨a, as3, st4, rfl, ho, ha, hs4, hrun4⟩ := advance (t := t) (by simp [upd]) hs3 hrun3 hend
    obtain ⟨now1, rfl⟩ := next_valOk (k := k) (id := id) (by simp [upd]) ho ha
    have hth4 := hth3.2 _ ha
    have hc2 : (readings (.checkTTL t now0 :: .checkVal t ok :: .checkExp t now1 :: as3) : Env).clk 1 = now1 := by simp [readings, first]
    simp only [apply, upd_at, he] at ha
    split at ha
    · rename_i hbad
      simp only [Option.some.injEq] at ha; subst ha
      rw [if_pos (by unfold invalid; rw [hc2, hr.holds.expire]; simp [hbad])]
      have hd := drop_block hs4 (upd_at _ _ _) (upd_idle (upd_idle (upd_idle hi1))) hr hth4 hrun4 hend
      have hd := hd.step (st := st) (a := .checkExp t now1) rfl (by simp [said])
      have hd := hd.step (st := st) (a := .checkVal t ok) rfl rfl
      exact hd.step (a := .checkTTL t now0) rfl rfl
    rename_i hok2
    simp only [Option.some.injEq] at ha; subst ha
    have hinv : invalid c (readings (.checkTTL t now0 :: .checkVal t ok :: .checkExp t now1 :: as3)) k e = false := by
      unfold invalid
      rw [hc0, hc1, hc2, hr.holds.expire, hr.holds.hasValidator]
      simp only [Bool.or_eq_false_iff, Bool.and_eq_false_iff, decide_eq_false_iff_not, Decidable.not_not]
      refine ⟨⟨?_, ?_⟩, ?_⟩
      · by_cases h : e.ttl = 0
        · exact .inl h
        · exact .inr (by cases hx : past e.ctime e.ttl now0 with | false => rfl | true => exact absurd ⟨h, hx⟩ hok0)
      · cases hx : st.sh.hasValidator with
        | false => exact .inl rfl
        | true => refine .inr ?_; cases ok with
          | true => rfl
          | false => exact absurd ⟨hx, rfl⟩ hok1
      · by_cases h : st.sh.expire = 0
        · exact .inl h
        · exact .inr (by cases hx : past e.ctime st.sh.expire now1 with | false => rfl | true => exact absurd ⟨h, hx⟩ hok2)
    rw [hinv]
    have hc3 : (readings (.checkTTL t now0 :: .checkVal t ok :: .checkExp t now1 :: as3) : Env).clk 2 = (readings as3 : Env).clk 2 := by
      simp [readings, first]
    simp only [Bool.false_eq_true, if_false]
    rw [hc3]
    have hd := good_block hs4 (upd_at _ _ _) hid he hce (upd_idle (upd_idle (upd_idle hi1))) hr hth4 hrun4 hend
    have hd := hd.step (st := st) (a := .checkExp t now1) rfl rfl
    have hd := hd.step (st := st) (a := .checkVal t ok) rfl rfl
    exact hd.step (a := .checkTTL t now0) rfl rfl

/-! ## Verify -/

theorem amap_del_eq_filter {V : Type} (m : AMap V) (a : Str) : m.del a = m.filter fun p => decide (p.1 ≠ a) := by
  induction m with
  | nil => rfl
  | cons p m ih =>
    obtain ⟨k, v⟩ := p
    simp only [AMap.del, List.filter_cons, ih]
    by_cases h : k = a <;> simp [h]

theorem amap_del_comm {V : Type} (m : AMap V) (a b : Str) : (m.del a).del b = (m.del b).del a := by
  simp only [amap_del_eq_filter, List.filter_filter, Bool.and_comm]

theorem cache_del_comm (c : Cache D) (a b : Str) : Cache.del (Cache.del c a) b = Cache.del (Cache.del c b) a := by
  simp only [Cache.del, amap_del_comm c.items a b, removeFromPile_eq_erase, List.erase_comm a b]

theorem foldl_del_perm {l l' : List Str} (h : l.Perm l') : ∀ c : Cache D, l.foldl Cache.del c = l'.foldl Cache.del c := by
  induction h with
  | nil => intro c; rfl
  | cons x _ ih => intro c; exact ih _
  | swap x y l => intro c; simp only [List.foldl_cons]; rw [cache_del_comm]
  | trans _ _ ih1 ih2 => intro c; rw [ih1, ih2]

theorem foldl_del_keys (l : List Str) : ∀ c : Cache D, ∀ k, k ∈ (l.foldl Cache.del c).items.keys ↔ k ∉ l ∧ k ∈ c.items.keys := by
  induction l with
  | nil => intro c k; simp
  | cons x l ih =>
    intro c k
    simp only [List.foldl_cons]
    rw [ih]
    simp only [Cache.del, AMap.mem_keys_del, List.mem_cons, not_or]
    constructor
    · rintro ⟨h1, h2, h3⟩; exact ⟨⟨h2, h1⟩, h3⟩
    · rintro ⟨⟨h1, h2⟩, h3⟩; exact ⟨h2, h1, h3⟩

theorem foldl_del_hasValidator (l : List Str) : ∀ c : Cache D, (l.foldl Cache.del c).hasValidator = c.hasValidator := by
  induction l with
  | nil => intro c; rfl
  | cons x l ih => intro c; simp only [List.foldl_cons]; rw [ih]; rfl

theorem verifyLoop_foldl (env : Env) (ans : Str → Bool) (hv : ∀ k x, env.valid k x = ans k) : ∀ (l : List (Str × Entry D)) (c : Cache D) (i : Int),
    (verifyLoop env l c i).1 = ((l.map Prod.fst).filter fun k => !ans k).foldl Cache.del c := by
  intro l
  induction l with
  | nil => intro c i; rfl
  | cons p l ih =>
    intro c i
    obtain ⟨k, x⟩ := p
    simp only [verifyLoop, hv, List.map_cons, List.filter_cons]
    split
    · rw [ih]; rfl
    · rw [ih]

theorem verify_loop {st' : St D} {c1 : Cache D} {t : Nat} (ans : Str → Bool) (hend : ∀ u, st'.pcs u = .idle) :
    ∀ (n : Nat) (as : List (Act D)) (st : St D) (seen dels : List Str), as.length ≤ n → st.pcs t = .verifying st.left.length →
      (∀ u, u ≠ t → st.pcs u = .idle) → Rep st.sh (dels.foldl Cache.del c1) → Serial st as → Thorough st seen as →
      runActs st as = some st' → dels.Nodup → (∀ k ∈ dels, k ∈ seen) →
      (∀ k ∈ seen, k ∈ c1.items.keys ∧ (k ∈ dels ↔ c1.hasValidator = true ∧ ans k = false)) → (∀ k, k ∉ seen → verdict as k = ans k) →
      ∃ dels' seen' : List Str, dels'.Nodup ∧ (∀ k, k ∈ dels' ↔ k ∈ c1.items.keys ∧ c1.hasValidator = true ∧ ans k = false) ∧
        Done st st' seen' as (dels'.foldl Cache.del c1) [] := by
  intro n
  induction n with
  | zero =>
    intro as st seen dels hl hp hidle hr hs hth hrun
    cases as with
    | nil =>
      simp only [runActs, Option.some.injEq] at hrun; subst hrun
      rw [hend t] at hp; cases hp
    | cons _ _ => simp at hl
  | succ n ih =>
    intro as st seen dels hl hp hidle hr hs hth hrun hnd hds hseen hver
    have hval : c1.hasValidator = st.sh.hasValidator := by rw [← foldl_del_hasValidator dels c1]; exact hr.holds.hasValidator
    have hkeys : ∀ k, k ∈ st.sh.items.keys ↔ k ∉ dels ∧ k ∈ c1.items.keys := by
      intro k; rw [← foldl_del_keys dels c1 k, hr.holds.items.keys]
    obtain ⟨a, as1, st1, rfl, ho, ha, hs1, hrun1⟩ := advance (t := t) (by rw [hp]; nofun) hs hrun hend
    rcases next_verifying hp ho ha with ⟨k, ok, rfl⟩ | rfl
    · have hth1 := hth.2 _ ha
      have hk : k ∉ seen := hth.1
      have hok : ans k = ok := by rw [← hver k hk]; simp [verdict, first]
      simp only [apply, hp, ranged, List.drop_length, List.any_nil, Bool.or_false] at ha
      cases hg : st.sh.items.get k with
      | none => rw [hg] at ha; cases ha
      | some id =>
        rw [hg] at ha
        simp only [Option.isSome_some, if_true] at ha
        have hkin : k ∈ st.sh.items.keys := (AMap.mem_keys_iff _ _).2 ⟨id, hg⟩
        have hkc := (hkeys k).1 hkin
        have hver1 : ∀ k', k' ∉ k :: seen → verdict as1 k' = ans k' := by
          intro k' hk'
          simp only [List.mem_cons, not_or] at hk'
          rw [← hver k' hk'.2]
          simp [verdict, first, Ne.symm hk'.1]
        split at ha
        · rename_i hbad
          simp only [Option.some.injEq] at ha; subst ha
          simp only [Bool.not_eq_true'] at hbad
          obtain ⟨a, as2, st2, rfl, ho, ha, hs2, hrun2⟩ := advance (t := t) (by simp [upd]) hs1 hrun1 hend
          obtain rfl := next_vdoomed (k := k) (m := st.left.length) (by simp [upd]) ho ha
          have hth2 := hth1.2 _ ha
          simp only [apply, upd_at, Option.some.injEq] at ha; subst ha
          have hlen : as2.length ≤ n := by simp only [List.length_cons] at hl; omega
          obtain ⟨dels', seen', h1, h2, h3⟩ := ih as2 _ (k :: seen) (dels ++ [k]) hlen (upd_at _ _ _) (upd_idle (upd_idle hidle))
            (by rw [List.foldl_append]; exact hr.del k) hs2 hth2 hrun2
            (by rw [List.nodup_append]; exact ⟨hnd, by simp, by rintro x hx y hy rfl; simp only [List.mem_singleton] at hy; subst hy; exact hkc.1 hx⟩)
            (by
              intro x hx
              simp only [List.mem_append, List.mem_singleton] at hx
              rcases hx with hx | hx
              · exact List.mem_cons_of_mem _ (hds x hx)
              · simp [hx])
            (by
              intro x hx
              simp only [List.mem_cons] at hx
              rcases hx with rfl | hx
              · exact ⟨hkc.2, by simp [hval, hbad, hok]⟩
              · have hne : x ≠ k := by rintro rfl; exact hk hx
                obtain ⟨h1, h2⟩ := hseen x hx
                exact ⟨h1, by simp [hne, h2]⟩)
            (by intro x hx; rw [← hver1 x hx]; rfl)
          have hd := h3.step (st := st) (a := .verifyDel t) rfl rfl
          exact ⟨dels', seen', h1, h2, hd.step (a := .verifyPick t k ok) rfl rfl⟩
        · rename_i hgood
          simp only [Option.some.injEq] at ha; subst ha
          have hlen : as1.length ≤ n := by simp only [List.length_cons] at hl; omega
          obtain ⟨dels', seen', h1, h2, h3⟩ := ih as1 _ (k :: seen) dels hlen hp hidle hr hs1 hth1 hrun1 hnd
            (fun x hx => List.mem_cons_of_mem _ (hds x hx))
            (by
              intro x hx
              simp only [List.mem_cons] at hx
              rcases hx with rfl | hx
              · refine ⟨hkc.2, iff_of_false hkc.1 ?_⟩
                rw [hval, hok]
                rintro ⟨h1, h2⟩
                exact hgood ⟨h1, by simp [h2]⟩
              · exact hseen x hx) hver1
          exact ⟨dels', seen', h1, h2, h3.step (a := .verifyPick t k ok) rfl rfl⟩
    · have hth1 := hth.2 _ ha
      have hall := hth.1
      simp only [apply, hp, Option.some.injEq] at ha; subst ha
      refine ⟨dels, seen, hnd, ?_, as1, _, Nat.le_succ _, rfl, hs1, hth1, hrun1, upd_all_idle hidle, hr, by simp⟩
      intro k
      constructor
      · intro hk
        obtain ⟨h1, h2⟩ := hseen k (hds k hk)
        exact ⟨h1, h2.1 hk⟩
      · rintro ⟨h1, h2, h3⟩
        by_cases hk : k ∈ dels
        · exact hk
        · obtain ⟨id, hid⟩ := (AMap.mem_keys_iff _ _).1 ((hkeys k).2 ⟨hk, h1⟩)
          have := hall (by rw [← hval]; exact h2) k id hid
          exact (hseen k this).2.2 ⟨h2, h3⟩

theorem mClean_verdicts (c : Cache D) (env : Env) (p : Int) (f : Str → Int → Bool) :
    Cache.mClean c { env with valid := f } p = Cache.mClean c env p := rfl

theorem verify_block {st st' : St D} {c : Cache D} {t : Nat} {env : Env} {seen : List Str} {as : List (Act D)} (hidle : ∀ u, st.pcs u = .idle)
    (hr : Rep st.sh c) (hs : Serial st (.verifyStart t env :: as)) (hth : Thorough st seen (.verifyStart t env :: as))
    (hrun : runActs st (.verifyStart t env :: as) = some st') (hend : ∀ u, st'.pcs u = .idle) :
    (∃ n, (Cache.verify c { env with valid := fun k _ => verdict as k }).2 = some n) ∧
    ∃ seen', Done st st' seen' as (Cache.verify c { env with valid := fun k _ => verdict as k }).1 [] := by
  obtain ⟨st1, ha, hrun1⟩ := runActs_cons hrun
  have hs1 := hs.2 _ ha
  have hth1 := hth.2 _ ha
  simp only [apply, hidle t, Option.some.injEq] at ha
  obtain ⟨hrc, hflag⟩ := hr.mClean env 0
  rw [hr.tracked.mClean_ok env (by decide)] at ha hflag
  simp only [if_true, List.append_nil] at ha
  subst ha
  unfold Cache.verify Cache.clean
  rw [mClean_verdicts]
  generalize hc1 : Cache.mClean c env 0 = r at *
  obtain ⟨c1, o⟩ := r
  cases o with
  | none => simp at hflag
  | some i =>
    dsimp only at hrc ⊢
    obtain ⟨dels, seen', h1, h2, h3⟩ := verify_loop (c1 := c1) (t := t) (fun k => verdict as k) hend as.length as _ [] [] (Nat.le_refl _) (upd_at _ _ _)
      (upd_idle fun u _ => hidle u) hrc hs1 hth1 hrun1 List.nodup_nil (by simp) (by simp) (fun _ _ => rfl)
    have hd : Done st st' seen' as (dels.foldl Cache.del c1) [] := h3
    split
    · rename_i hv
      refine ⟨⟨_, rfl⟩, seen', ?_⟩
      dsimp only
      rw [verifyLoop_foldl _ (fun k => verdict as k) (fun _ _ => rfl)]
      rw [← foldl_del_perm (l := dels) ?_]
      · exact hd
      · refine (List.perm_ext_iff_of_nodup h1 ?_).2 ?_
        · refine List.Nodup.sublist List.filter_sublist ?_
          have := hrc.tracked.nodup
          rw [AMap.Nodup, ← hrc.holds.items.keys] at this
          exact this
        · intro k
          rw [h2]
          simp only [List.mem_filter, Bool.not_eq_true', AMap.keys, hv, true_and]
    · rename_i hv
      refine ⟨⟨_, rfl⟩, seen', ?_⟩
      have : dels = [] := by
        cases dels with
        | nil => rfl
        | cons x _ => exact absurd ((h2 x).1 (by simp)).2.1 hv
      rw [this] at hd
      exact hd

/-! ## Whole schedules -/

theorem run_cons (c : Cache D) (env : Env) (op : Op D) (h : List (Env × Op D)) :
    (run c ((env, op) :: h)).1 = (run (Cache.step c env op).1 h).1 ∧
    (run c ((env, op) :: h)).2 = (Cache.step c env op).2 :: (run (Cache.step c env op).1 h).2 := ⟨rfl, rfl⟩

/-- What holds at the end of a schedule, given what held before one of its calls. -/
def Ends (st st' : St D) (c : Cache D) (h : List (Env × Op D)) : Prop :=
  Holds st'.sh (run c h).1 ∧ st'.obs.filterMap said = st.obs.filterMap said ++ (run c h).2.filter isSaid

theorem Ends.call {st st1 st' : St D} {c : Cache D} {env : Env} {op : Op D} {h : List (Env × Op D)} {outs : List (Out D)}
    (he : Ends st1 st' (Cache.step c env op).1 h) (ho : st1.obs.filterMap said = st.obs.filterMap said ++ outs)
    (hout : [(Cache.step c env op).2].filter isSaid = outs) : Ends st st' c ((env, op) :: h) := by
  refine ⟨he.1, ?_⟩
  rw [he.2, ho, (run_cons c env op h).2, ← hout, List.append_assoc, ← List.filter_append]
  rfl

theorem Rep.setTTL {s : Shared D} {c : Cache D} (h : Rep s c) {k : Str} {id : Nat} (hid : s.items.get k = some id) (ttl : Int) :
    Rep { s with heap := CacheConc.modify s.heap id (fun e => { e with ttl }) } (Cache.setTTL c k ttl) := by
  obtain ⟨e, hce, _⟩ := h.holds.items.get_some hid
  unfold Cache.setTTL
  rw [hce]
  exact ⟨⟨h.holds.maxitems, h.holds.expire, h.holds.hasValidator, h.holds.pile, h.holds.items.modify h.ids hid hce _⟩,
    ⟨h.tracked.nodup, h.tracked.sub⟩, h.ids⟩

theorem serial_ends {st' : St D} (hend : ∀ u, st'.pcs u = .idle) : ∀ (n : Nat) (as : List (Act D)) (st : St D) (c : Cache D) (seen : List Str),
    as.length ≤ n → Serial st as → (∀ u, st.pcs u = .idle) → Rep st.sh c → Thorough st seen as → runActs st as = some st' →
    Ends st st' c (calls as) := by
  intro n
  induction n with
  | zero =>
    intro as st c seen hl hs hidle hr hth hrun
    cases as with
    | nil =>
      simp only [runActs, Option.some.injEq] at hrun; subst hrun
      exact ⟨hr.holds, by simp [calls, run]⟩
    | cons _ _ => simp at hl
  | succ n ih =>
    intro as st c seen hl hs hidle hr hth hrun
    cases as with
    | nil =>
      simp only [runActs, Option.some.injEq] at hrun; subst hrun
      exact ⟨hr.holds, by simp [calls, run]⟩
    | cons a as =>
      have hlen : as.length ≤ n := by simpa using hl
      obtain ⟨st1, ha, hrun1⟩ := runActs_cons hrun
      have hs1 := hs.2 _ ha
      have hth1 := hth.2 _ ha
      cases a with
      | set env k d =>
        simp only [apply, Option.some.injEq] at ha; subst ha
        obtain ⟨h1, h2⟩ := hr.set env k d
        refine (ih as _ _ seen hlen hs1 hidle h1 hth1 hrun1).call (op := .set k d) (outs := if (CacheConc.set st.sh env k d).2 then [] else [.panicked]) ?_ ?_
        · rw [List.filterMap_append]
          congr 1
          cases (CacheConc.set st.sh env k d).2 <;> rfl
        · simp only [Cache.step, h2]
          split <;> simp [isSaid]
      | setTTL k ttl =>
        simp only [apply] at ha
        split at ha
        · rename_i id hid
          simp only [Option.some.injEq] at ha; subst ha
          exact (ih as _ _ seen hlen hs1 hidle (hr.setTTL hid ttl) hth1 hrun1).call (op := .setTTL k ttl) (outs := []) (by simp) rfl
        · rename_i hid
          simp only [Option.some.injEq] at ha; subst ha
          have : Rep st.sh (Cache.step c (readings as) (.setTTL k ttl)).1 := by
            simp only [Cache.step, Cache.setTTL, hr.holds.items.get_none hid]; exact hr
          exact (ih as _ _ seen hlen hs1 hidle this hth1 hrun1).call (op := .setTTL k ttl) (outs := []) (by simp) rfl
      | del k =>
        simp only [apply, Option.some.injEq] at ha; subst ha
        exact (ih as _ _ seen hlen hs1 hidle (hr.del k) hth1 hrun1).call (op := .del k) (outs := []) (by simp) rfl
      | clean env p =>
        simp only [apply, Option.some.injEq] at ha; subst ha
        obtain ⟨h1, h2⟩ := hr.mClean env p
        refine (ih as _ _ seen hlen hs1 hidle h1 hth1 hrun1).call (op := .clean p) (outs := if (CacheConc.mClean st.sh env p).2 then [] else [.panicked]) ?_ ?_
        · simp only [List.filterMap_append]
          congr 1
          split <;> simp [said]
        · simp only [Cache.step, Cache.clean, h2]
          cases (Cache.mClean c env p).2 <;> simp [isSaid]
      | flush =>
        simp only [apply, Option.some.injEq] at ha; subst ha
        have : Rep { st.sh with items := [] } (Cache.flush c) :=
          ⟨⟨hr.holds.maxitems, hr.holds.expire, hr.holds.hasValidator, hr.holds.pile, .nil⟩, ⟨AMap.nodup_nil, by simp⟩, by simp⟩
        exact (ih as _ _ seen hlen hs1 hidle this hth1 hrun1).call (op := .flush) (outs := []) (by simp) rfl
      | setMaxitems m =>
        simp only [apply, Option.some.injEq] at ha; subst ha
        have : Rep { st.sh with maxitems := m } { c with maxitems := m } :=
          ⟨⟨rfl, hr.holds.expire, hr.holds.hasValidator, hr.holds.pile, hr.holds.items⟩, ⟨hr.tracked.nodup, hr.tracked.sub⟩, hr.ids⟩
        exact (ih as _ _ seen hlen hs1 hidle this hth1 hrun1).call (op := .setMaxitems m) (outs := []) (by simp) rfl
      | setExpire e =>
        simp only [apply, Option.some.injEq] at ha; subst ha
        have : Rep { st.sh with expire := e } { c with expire := e } :=
          ⟨⟨hr.holds.maxitems, rfl, hr.holds.hasValidator, hr.holds.pile, hr.holds.items⟩, ⟨hr.tracked.nodup, hr.tracked.sub⟩, hr.ids⟩
        exact (ih as _ _ seen hlen hs1 hidle this hth1 hrun1).call (op := .setExpire e) (outs := []) (by simp) rfl
      | setValidator b =>
        simp only [apply, Option.some.injEq] at ha; subst ha
        have : Rep { st.sh with hasValidator := b } { c with hasValidator := b } :=
          ⟨⟨hr.holds.maxitems, hr.holds.expire, rfl, hr.holds.pile, hr.holds.items⟩, ⟨hr.tracked.nodup, hr.tracked.sub⟩, hr.ids⟩
        exact (ih as _ _ seen hlen hs1 hidle this hth1 hrun1).call (op := .setValidator b) (outs := []) (by simp) rfl
      | getStart t k =>
        obtain ⟨rest, st2, h1, h2, h3, h4, h5, h6, h7, h8⟩ := get_block hidle hr hs hth hrun hend
        simp only [calls]
        rw [h2]
        exact (ih rest st2 _ seen (Nat.le_trans h1 hlen) h3 h6 h7 h4 h5).call (op := .get k) h8 rfl
      | verifyStart t env =>
        obtain ⟨⟨i, hi⟩, seen', rest, st2, h1, h2, h3, h4, h5, h6, h7, h8⟩ := verify_block hidle hr hs hth hrun hend
        simp only [calls]
        rw [h2]
        refine (ih rest st2 _ seen' (Nat.le_trans h1 hlen) h3 h6 h7 h4 h5).call (op := .verify) h8 ?_
        simp only [Cache.step, hi]
        rfl
      | checkTTL t _ => simp [apply, hidle t] at ha
      | checkVal t _ => simp [apply, hidle t] at ha
      | checkExp t _ => simp [apply, hidle t] at ha
      | writeRtime t _ => simp [apply, hidle t] at ha
      | getEnd t => simp [apply, hidle t] at ha
      | getDrop t => simp [apply, hidle t] at ha
      | verifyPick t _ _ => simp [apply, hidle t] at ha
      | verifyDel t => simp [apply, hidle t] at ha
      | verifyEnd t => simp [apply, hidle t] at ha

end Xcore.CacheConc
