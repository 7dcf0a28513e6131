import Verif.Proof.CacheSerial
import Verif.Proof.V1.CacheConc
import Verif.Spec.V1.CacheSerial

/-!
# Lemmas about calls on a cache of version 1 that do not overlap
-/

namespace Xcore.V1.CacheConc

open Xcore.Cache (Env Out)
open Xcore.V1.Cache (Entry Cache Op removeFromPile verifyLoop run)
open Xcore.CacheConc (del_snd_sublist ids_lt ids_set amap_del_comm)
open Xcore.CacheConc.Spec (first SameItems)
open Spec

variable {D : Type}

/-- The shared memory holds the cache, keys are not repeated, and no entry belongs to two keys. -/
structure Rep (s : Shared D) (c : Cache D) : Prop where
  holds : Holds s c
  nodup : s.items.Nodup
  ids : (s.items.map Prod.snd).Nodup

theorem foldl_same {heap : List (Entry D)} (l : List Str) : ∀ {s : AMap Nat} {c : AMap (Entry D)}, SameItems heap s c →
    SameItems heap (l.foldl (fun m k => AMap.del m k) s) (l.foldl (fun m k => AMap.del m k) c) := by
  induction l with
  | nil => intro s c h; exact h
  | cons k l ih => intro s c h; exact ih (h.del k)

theorem foldl_snd_sublist (l : List Str) : ∀ m : AMap Nat, ((l.foldl (fun m k => AMap.del m k) m).map Prod.snd).Sublist (m.map Prod.snd) := by
  induction l with
  | nil => intro m; exact List.Sublist.refl _
  | cons k l ih => intro m; exact (ih _).trans (del_snd_sublist m k)

theorem Rep.del {s : Shared D} {c : Cache D} (h : Rep s c) (k : Str) : Rep (del s k) (Cache.del c k) :=
  ⟨⟨h.holds.maxitems, h.holds.expire, h.holds.hasValidator, by simp [CacheConc.del, Cache.del, h.holds.pile], h.holds.items.del k⟩,
    AMap.nodup_del h.nodup k, h.ids.sublist (del_snd_sublist _ _)⟩

/-- The deletion done by `Verify`. -/
def forget (c : Cache D) (k : Str) : Cache D := { c with items := c.items.del k }

theorem Rep.forget {s : Shared D} {c : Cache D} (h : Rep s c) (k : Str) : Rep { s with items := s.items.del k } (forget c k) :=
  ⟨⟨h.holds.maxitems, h.holds.expire, h.holds.hasValidator, h.holds.pile, h.holds.items.del k⟩,
    AMap.nodup_del h.nodup k, h.ids.sublist (del_snd_sublist _ _)⟩

theorem Rep.clean {s : Shared D} {c : Cache D} (h : Rep s c) (env : Env) (p : Int) :
    Rep (clean s env p).1 (Cache.clean c env p).1 ∧ (clean s env p).2 = (Cache.clean c env p).2.isSome := by
  have hn := (clean_spec s env p h.nodup).1
  unfold CacheConc.clean at hn ⊢
  unfold Cache.clean
  dsimp only at hn ⊢
  rw [h.holds.expire, h.holds.pile]
  have hsw : SameItems s.heap
      (if s.expire ≠ 0 then s.items.filter fun p => match s.heap[p.2]? with
        | some e => !decide (e.ctime + s.expire < env.clkAt p.1)
        | none => true
       else s.items)
      (if s.expire ≠ 0 then c.items.filter fun p => !decide (p.2.ctime + s.expire < env.clkAt p.1) else c.items) := by
    split
    · refine h.holds.items.filter ?_
      intro k id e he
      simp [he]
    · exact h.holds.items
  have hid : ((if s.expire ≠ 0 then s.items.filter fun p => match s.heap[p.2]? with
        | some e => !decide (e.ctime + s.expire < env.clkAt p.1)
        | none => true
       else s.items : AMap Nat).map Prod.snd).Nodup := by
    split
    · exact List.Nodup.sublist ((List.filter_sublist).map _) h.ids
    · exact h.ids
  rw [hsw.length]
  generalize (if s.expire ≠ 0 then s.items.filter fun p => match s.heap[p.2]? with
        | some e => !decide (e.ctime + s.expire < env.clkAt p.1)
        | none => true
       else s.items : AMap Nat) = x at *
  generalize (if s.expire ≠ 0 then c.items.filter fun p => !decide (p.2.ctime + s.expire < env.clkAt p.1) else c.items : AMap (Entry D)) = y at *
  generalize (Int.tdiv (x.length * p) 100).toNat = n at *
  have h1 := foldl_same (s.pile.take n) hsw
  have h2 := hid.sublist (foldl_snd_sublist (s.pile.take n) x)
  split
  · rename_i hle
    rw [if_pos hle] at hn
    exact ⟨⟨⟨h.holds.maxitems, rfl, h.holds.hasValidator, rfl, h1⟩, hn, h2⟩, rfl⟩
  · rename_i hle
    rw [if_neg hle] at hn
    exact ⟨⟨⟨h.holds.maxitems, rfl, h.holds.hasValidator, rfl, h1⟩, hn, h2⟩, rfl⟩

/-- The state of the sequential cache after the first half of `Set`. -/
def halfSet (c : Cache D) (env : Env) (k : Str) (d : D) : Cache D :=
  { c with items := c.items.set k { ctime := env.clk 0, rtime := env.clk 1, data := d },
           pile := (if (c.items.get k).isSome then removeFromPile c.pile k else c.pile) ++ [k] }

theorem set_eq (c : Cache D) (env : Env) (k : Str) (d : D) : Cache.set c env k d =
    if 0 < c.maxitems ∧ c.maxitems ≤ (halfSet c env k d).items.length then
      ((Cache.clean (halfSet c env k d) env 10).1, (Cache.clean (halfSet c env k d) env 10).2.isSome) else (halfSet c env k d, true) := rfl

theorem Rep.set {s : Shared D} {c : Cache D} (h : Rep s c) (env : Env) (k : Str) (d : D) : Rep (set s env k d) (halfSet c env k d) := by
  refine ⟨⟨h.holds.maxitems, h.holds.expire, h.holds.hasValidator, ?_, ?_⟩, AMap.nodup_set h.nodup k _, ?_⟩
  · simp only [CacheConc.set, halfSet, h.holds.items.get_isSome, h.holds.pile]
  · exact (h.holds.items.grow _).set k (by simp)
  · exact ids_set h.ids (ids_lt h.holds.items) k

/-! ## One step of a schedule without overlap -/

theorem runActs_cons {st st' : St D} {a : Act D} {as : List (Act D)} (h : runActs st (a :: as) = some st') :
    ∃ st1, apply st a = some st1 ∧ runActs st1 as = some st' := by
  simp only [runActs] at h
  split at h
  · rename_i st1 h1; exact ⟨st1, h1, h⟩
  · cases h

/-- A goroutine inside a call takes the next step. -/
theorem advance {st st' : St D} {t : Nat} {as : List (Act D)} (hp : st.pcs t ≠ .idle) (hs : Serial st as)
    (hrun : runActs st as = some st') (hend : ∀ u, st'.pcs u = .idle) :
    ∃ a as' st1, as = a :: as' ∧ owner a = some t ∧ apply st a = some st1 ∧ Serial st1 as' ∧ runActs st1 as' = some st' := by
  cases as with
  | nil =>
    simp only [runActs, Option.some.injEq] at hrun; subst hrun
    exact absurd (hend t) hp
  | cons a as' =>
    obtain ⟨st1, h1, h2⟩ := runActs_cons hrun
    exact ⟨a, as', st1, rfl, hs.1 t hp, h1, hs.2.2 _ h1, h2⟩

theorem next_setDone {st st1 : St D} {t : Nat} {a : Act D} (hp : st.pcs t = .setDone) (ho : owner a = some t)
    (ha : apply st a = some st1) : (∃ env, a = .setFull t env) ∨ a = .setOk t := by
  cases a <;> simp only [owner, reduceCtorEq, Option.some.injEq] at ho <;> subst ho <;> simp [apply, hp] at ha ⊢

theorem next_loaded {st st1 : St D} {t : Nat} {k : Str} {id : Nat} {a : Act D} (hp : st.pcs t = .loaded k id) (ho : owner a = some t)
    (ha : apply st a = some st1) : ∃ ok, a = .checkVal t ok := by
  cases a <;> simp only [owner, reduceCtorEq, Option.some.injEq] at ho <;> subst ho <;> simp [apply, hp] at ha ⊢

theorem next_valOk {st st1 : St D} {t : Nat} {k : Str} {id : Nat} {a : Act D} (hp : st.pcs t = .valOk k id) (ho : owner a = some t)
    (ha : apply st a = some st1) : ∃ now, a = .checkExp t now := by
  cases a <;> simp only [owner, reduceCtorEq, Option.some.injEq] at ho <;> subst ho <;> simp [apply, hp] at ha ⊢

theorem next_good {st st1 : St D} {t : Nat} {k : Str} {id : Nat} {a : Act D} (hp : st.pcs t = .good k id) (ho : owner a = some t)
    (ha : apply st a = some st1) : ∃ now, a = .writeRtime t now := by
  cases a <;> simp only [owner, reduceCtorEq, Option.some.injEq] at ho <;> subst ho <;> simp [apply, hp] at ha ⊢

theorem next_touch {st st1 : St D} {t : Nat} {k : Str} {id : Nat} {a : Act D} (hp : st.pcs t = .touch k id) (ho : owner a = some t)
    (ha : apply st a = some st1) : a = .loadPile t := by
  cases a <;> simp only [owner, reduceCtorEq, Option.some.injEq] at ho <;> subst ho <;> simp [apply, hp] at ha ⊢

theorem next_removing {st st1 : St D} {t : Nat} {k : Str} {id : Nat} {l : List Str} {a : Act D} (hp : st.pcs t = .removing k id l) (ho : owner a = some t)
    (ha : apply st a = some st1) : a = .storePile t := by
  cases a <;> simp only [owner, reduceCtorEq, Option.some.injEq] at ho <;> subst ho <;> simp [apply, hp] at ha ⊢

theorem next_removed {st st1 : St D} {t : Nat} {k : Str} {id : Nat} {a : Act D} (hp : st.pcs t = .removed k id) (ho : owner a = some t)
    (ha : apply st a = some st1) : a = .loadPile t := by
  cases a <;> simp only [owner, reduceCtorEq, Option.some.injEq] at ho <;> subst ho <;> simp [apply, hp] at ha ⊢

theorem next_adding {st st1 : St D} {t : Nat} {k : Str} {id : Nat} {l : List Str} {a : Act D} (hp : st.pcs t = .adding k id l) (ho : owner a = some t)
    (ha : apply st a = some st1) : a = .storePile t := by
  cases a <;> simp only [owner, reduceCtorEq, Option.some.injEq] at ho <;> subst ho <;> simp [apply, hp] at ha ⊢

theorem next_doomed {st st1 : St D} {t : Nat} {k : Str} {id : Nat} {a : Act D} (hp : st.pcs t = .doomed k id) (ho : owner a = some t)
    (ha : apply st a = some st1) : a = .getDrop t := by
  cases a <;> simp only [owner, reduceCtorEq, Option.some.injEq] at ho <;> subst ho <;> simp [apply, hp] at ha ⊢

theorem next_verifying {st st1 : St D} {t m : Nat} {a : Act D} (hp : st.pcs t = .verifying m) (ho : owner a = some t)
    (ha : apply st a = some st1) : (∃ k ok, a = .verifyPick t k ok) ∨ a = .verifyEnd t := by
  cases a <;> simp only [owner, reduceCtorEq, Option.some.injEq] at ho <;> subst ho <;> simp [apply, hp] at ha ⊢

theorem next_vdoomed {st st1 : St D} {t m : Nat} {k : Str} {a : Act D} (hp : st.pcs t = .vdoomed k m) (ho : owner a = some t)
    (ha : apply st a = some st1) : a = .verifyDel t := by
  cases a <;> simp only [owner, reduceCtorEq, Option.some.injEq] at ho <;> subst ho <;> simp [apply, hp] at ha ⊢

theorem upd_idle {pcs : Nat → PC} {t : Nat} {p : PC} (h : ∀ u, u ≠ t → pcs u = .idle) : ∀ u, u ≠ t → upd pcs t p u = .idle := by
  intro u hu; simp [upd, hu, h u hu]

theorem upd_all_idle {pcs : Nat → PC} {t : Nat} (h : ∀ u, u ≠ t → pcs u = .idle) : ∀ u, upd pcs t .idle u = .idle := by
  intro u
  by_cases hu : u = t
  · simp [upd, hu]
  · simp [upd, hu, h u hu]

theorem upd_at (pcs : Nat → PC) (t : Nat) (p : PC) : upd pcs t p t = p := by simp [upd]

/-- The outcome of a call that has been finished: what is left of the schedule, with the cache `c`, having said `outs`. -/
def Done (st st' : St D) (seen : List Str) (as : List (Act D)) (c : Cache D) (outs : List (Out D)) : Prop :=
  ∃ rest st1, rest.length ≤ as.length ∧ calls as = calls rest ∧ Serial st1 rest ∧ Thorough st1 seen rest ∧ runActs st1 rest = some st' ∧
    (∀ u, st1.pcs u = .idle) ∧ Rep st1.sh c ∧ st1.obs.filterMap said = st.obs.filterMap said ++ outs

theorem Done.step {st st2 st' : St D} {seen : List Str} {a : Act D} {as : List (Act D)} {c : Cache D} {outs : List (Out D)}
    (h : Done st2 st' seen as c outs) (hc : calls (a :: as) = calls as) (ho : st2.obs.filterMap said = st.obs.filterMap said) :
    Done st st' seen (a :: as) c outs := by
  obtain ⟨rest, st1, h1, h2, h3, h4, h5, h6, h7, h8⟩ := h
  exact ⟨rest, st1, Nat.le_succ_of_le h1, hc.trans h2, h3, h4, h5, h6, h7, by rw [h8, ho]⟩

/-! ## Get -/

theorem drop_block {st st' : St D} {c : Cache D} {t : Nat} {k : Str} {id : Nat} {seen : List Str} {as : List (Act D)} (hs : Serial st as)
    (hp : st.pcs t = .doomed k id) (hidle : ∀ u, u ≠ t → st.pcs u = .idle) (hr : Rep st.sh c) (hth : Thorough st seen as)
    (hrun : runActs st as = some st') (hend : ∀ u, st'.pcs u = .idle) :
    Done st st' seen as (Cache.del c k) [.got none true] := by
  obtain ⟨a, as', st1, rfl, ho, ha, hs1, hrun1⟩ := advance (by rw [hp]; nofun) hs hrun hend
  obtain rfl := next_doomed hp ho ha
  have hth1 := hth.2 _ ha
  simp only [apply, hp] at ha
  split at ha <;> simp at ha
  rename_i h1 h2
  cases h2
  subst ha
  exact ⟨as', _, Nat.le_succ _, rfl, hs1, hth1, hrun1, upd_all_idle hidle, hr.del k, by simp [said]⟩

theorem good_block {st st' : St D} {c : Cache D} {t : Nat} {k : Str} {id : Nat} {e : Entry D} {seen : List Str} {as : List (Act D)}
    (hs : Serial st as) (hp : st.pcs t = .good k id) (hid : st.sh.items.get k = some id) (he : st.sh.heap[id]? = some e) (hce : c.items.get k = some e)
    (hidle : ∀ u, u ≠ t → st.pcs u = .idle) (hr : Rep st.sh c) (hth : Thorough st seen as)
    (hrun : runActs st as = some st') (hend : ∀ u, st'.pcs u = .idle) :
    Done st st' seen as { c with items := c.items.set k { e with rtime := (readings as).clk 2 }, pile := removeFromPile c.pile k ++ [k] }
      [.got (some e.data) false] := by
  obtain ⟨a, as', st1, rfl, ho, ha, hs1, hrun1⟩ := advance (by rw [hp]; nofun) hs hrun hend
  obtain ⟨now, rfl⟩ := next_good hp ho ha
  have hth1 := hth.2 _ ha
  simp only [apply, hp, Option.some.injEq] at ha
  subst ha
  have hclk : (readings (.writeRtime t now :: as') : Env).clk 2 = now := by simp [readings, first]
  rw [hclk]
  refine Done.step (a := .writeRtime t now) ?_ rfl rfl
  obtain ⟨a, as', st2, rfl, ho, ha, hs2, hrun2⟩ := advance (t := t) (by simp [upd]) hs1 hrun1 hend
  obtain rfl := next_touch (k := k) (id := id) (by simp [upd]) ho ha
  have hth2 := hth1.2 _ ha
  simp only [apply, upd_at, Option.some.injEq] at ha
  subst ha
  refine Done.step (a := .loadPile t) ?_ rfl rfl
  obtain ⟨a, as', st3, rfl, ho, ha, hs3, hrun3⟩ := advance (t := t) (by simp [upd]) hs2 hrun2 hend
  obtain rfl := next_removing (k := k) (id := id) (by simp [upd]; rfl) ho ha
  have hth3 := hth2.2 _ ha
  simp only [apply, upd_at, Option.some.injEq] at ha
  subst ha
  refine Done.step (a := .storePile t) ?_ rfl rfl
  obtain ⟨a, as', st4, rfl, ho, ha, hs4, hrun4⟩ := advance (t := t) (by simp [upd]) hs3 hrun3 hend
  obtain rfl := next_removed (k := k) (id := id) (by simp [upd]) ho ha
  have hth4 := hth3.2 _ ha
  simp only [apply, upd_at, Option.some.injEq] at ha
  subst ha
  refine Done.step (a := .loadPile t) ?_ rfl rfl
  obtain ⟨a, as', st5, rfl, ho, ha, hs5, hrun5⟩ := advance (t := t) (by simp [upd]) hs4 hrun4 hend
  obtain rfl := next_adding (k := k) (id := id) (by simp [upd]; rfl) ho ha
  have hth5 := hth4.2 _ ha
  have hget : (st.sh.heap.modify id fun e => { e with rtime := now })[id]? = some { e with rtime := now } := by
    simp [he]
  simp only [apply, upd_at, hget, Option.some.injEq] at ha
  subst ha
  refine ⟨as', _, Nat.le_succ _, rfl, hs5, hth5, hrun5, upd_all_idle (upd_idle (upd_idle (upd_idle (upd_idle hidle)))), ?_, by simp [said]⟩
  refine ⟨⟨hr.holds.maxitems, hr.holds.expire, hr.holds.hasValidator, by simp [hr.holds.pile], ?_⟩, hr.nodup, hr.ids⟩
  exact hr.holds.items.modify hr.ids hid hce _

theorem get_block {st st' : St D} {c : Cache D} {t : Nat} {k : Str} {seen : List Str} {as : List (Act D)} (hidle : ∀ u, st.pcs u = .idle)
    (hr : Rep st.sh c) (hs : Serial st (.getStart t k :: as)) (hth : Thorough st seen (.getStart t k :: as))
    (hrun : runActs st (.getStart t k :: as) = some st') (hend : ∀ u, st'.pcs u = .idle) :
    Done st st' seen as (Cache.get c (readings as) k).1 [.got (Cache.get c (readings as) k).2.1 (Cache.get c (readings as) k).2.2] := by
  obtain ⟨st1, ha, hrun1⟩ := runActs_cons hrun
  have hs1 := hs.2.2 _ ha
  have hth1 := hth.2 _ ha
  cases hlk : st.sh.locked with
  | true => simp [apply, hlk] at ha
  | false =>
  simp only [apply, hlk, hidle t] at ha
  unfold Cache.get
  cases hid : st.sh.items.get k with
  | none =>
    simp only [hid, Option.some.injEq] at ha
    subst ha
    rw [hr.holds.items.get_none hid]
    exact ⟨as, _, Nat.le_refl _, rfl, hs1, hth1, hrun1, hidle, hr, by simp [said]⟩
  | some id =>
    obtain ⟨e, hce, he⟩ := hr.holds.items.get_some hid
    simp only [hid, Option.some.injEq] at ha
    subst ha
    rw [hce]
    dsimp only
    have hi1 : ∀ u, u ≠ t → upd st.pcs t (.loaded k id) u = .idle := upd_idle fun u _ => hidle u
    -- validator
    obtain ⟨a, as2, st3, rfl, ho, ha, hs3, hrun3⟩ := advance (t := t) (by simp [upd]) hs1 hrun1 hend
    obtain ⟨ok, rfl⟩ := next_loaded (k := k) (id := id) (by simp [upd]) ho ha
    have hth3 := hth1.2 _ ha
    have hc1 : ∀ x, (readings (.checkVal t ok :: as2) : Env).valid k x = ok := by simp [readings, first]
    simp only [apply, upd_at] at ha
    rw [hc1, hr.holds.hasValidator]
    split at ha
    · rename_i hbad
      simp only [Option.some.injEq] at ha; subst ha
      rw [if_pos hbad]
      have hd := drop_block hs3 (upd_at _ _ _) (upd_idle hi1) hr hth3 hrun3 hend
      exact hd.step (a := .checkVal t ok) rfl rfl
    rename_i hok1
    rw [if_neg hok1]
    simp only [Option.some.injEq] at ha; subst ha
    -- expiration
    obtain ⟨a, as3, st4, rfl, ho, ha, hs4, hrun4⟩ := advance (t := t) (by simp [upd]) hs3 hrun3 hend
    obtain ⟨now1, rfl⟩ := next_valOk (k := k) (id := id) (by simp [upd]) ho ha
    have hth4 := hth3.2 _ ha
    have hc2 : (readings (.checkVal t ok :: .checkExp t now1 :: as3) : Env).clk 1 = now1 := by simp [readings, first]
    simp only [apply, upd_at, he] at ha
    rw [hc2, hr.holds.expire]
    split at ha
    · rename_i hbad
      simp only [Option.some.injEq] at ha; subst ha
      rw [if_pos (by simp [hbad])]
      have hd := drop_block hs4 (upd_at _ _ _) (upd_idle (upd_idle hi1)) hr hth4 hrun4 hend
      have hd := hd.step (st := st) (a := .checkExp t now1) rfl rfl
      exact hd.step (a := .checkVal t ok) rfl rfl
    rename_i hok2
    rw [if_neg (by simpa using hok2)]
    simp only [Option.some.injEq] at ha; subst ha
    have hc3 : (readings (.checkVal t ok :: .checkExp t now1 :: as3) : Env).clk 2 = (readings as3 : Env).clk 2 := by
      simp [readings, first]
    rw [hc3, ← hr.holds.expire, ← hr.holds.hasValidator]
    have hd := good_block hs4 (upd_at _ _ _) hid he hce (upd_idle (upd_idle hi1)) hr hth4 hrun4 hend
    have hd := hd.step (st := st) (a := .checkExp t now1) rfl rfl
    exact hd.step (a := .checkVal t ok) rfl rfl

/-! ## Set -/

theorem set_block {st st' : St D} {c : Cache D} {t : Nat} {env : Env} {k : Str} {d : D} {seen : List Str} {as : List (Act D)} (hidle : ∀ u, st.pcs u = .idle)
    (hr : Rep st.sh c) (hs : Serial st (.set t env k d :: as)) (hth : Thorough st seen (.set t env k d :: as))
    (hrun : runActs st (.set t env k d :: as) = some st') (hend : ∀ u, st'.pcs u = .idle) :
    Done st st' seen as (Cache.set c { env with clkAt := fullReadings as } k d).1
      (if (Cache.set c { env with clkAt := fullReadings as } k d).2 then [] else [.panicked]) := by
  obtain ⟨st1, ha, hrun1⟩ := runActs_cons hrun
  have hs1 := hs.2.2 _ ha
  have hth1 := hth.2 _ ha
  cases hlk : st.sh.locked with
  | true => simp [apply, hlk] at ha
  | false =>
  simp only [apply, hlk, hidle t, Option.some.injEq] at ha
  subst ha
  have hr1 := hr.set env k d
  have hr1' : Rep (CacheConc.set st.sh env k d) (halfSet c { env with clkAt := fullReadings as } k d) := hr1
  have hlen := hr1'.holds.items.length
  have hmax : (CacheConc.set st.sh env k d).maxitems = c.maxitems := hr.holds.maxitems.symm
  rw [set_eq, hlen]
  obtain ⟨a, as2, st2, rfl, ho, ha, hs2, hrun2⟩ := advance (t := t) (by simp [upd]) hs1 hrun1 hend
  have hth2 := hth1.2 _ ha
  have hlk1 : (CacheConc.set st.sh env k d).locked = false := hlk
  rcases next_setDone (by simp [upd]) ho ha with ⟨env', rfl⟩ | rfl
  · simp only [apply, upd_at, hlk1, hmax] at ha
    split at ha
    · rename_i hfull
      simp only [Option.some.injEq] at ha; subst ha
      rw [if_pos hfull]
      have hcl : Cache.clean (halfSet c { env with clkAt := fullReadings (.setFull t env' :: as2) } k d)
          { env with clkAt := fullReadings (.setFull t env' :: as2) } 10 =
          Cache.clean (halfSet c env k d) env' 10 := by
        have : fullReadings (.setFull t env' :: as2) = env'.clkAt := by funext k; simp [fullReadings, first]
        rw [this]; rfl
      rw [hcl]
      obtain ⟨h1, h2⟩ := hr1.clean env' 10
      refine ⟨as2, _, Nat.le_succ _, rfl, hs2, hth2, hrun2, upd_all_idle (upd_idle fun u _ => hidle u), h1, ?_⟩
      dsimp only
      rw [← h2]
      cases (CacheConc.clean (CacheConc.set st.sh env k d) env' 10).2 <;> simp [said] <;> rfl
    · cases ha
  · simp only [apply, upd_at, hmax] at ha
    split at ha
    · cases ha
    · rename_i hfull
      simp only [Option.some.injEq] at ha; subst ha
      rw [if_neg hfull]
      exact ⟨as2, _, Nat.le_succ _, rfl, hs2, hth2, hrun2, upd_all_idle (upd_idle fun u _ => hidle u), hr1', by simp [said]⟩

/-! ## Verify -/

theorem forget_comm (c : Cache D) (a b : Str) : forget (forget c a) b = forget (forget c b) a := by
  simp only [forget, amap_del_comm c.items a b]

theorem foldl_forget_perm {l l' : List Str} (h : l.Perm l') : ∀ c : Cache D, l.foldl forget c = l'.foldl forget c := by
  induction h with
  | nil => intro c; rfl
  | cons x _ ih => intro c; exact ih _
  | swap x y l => intro c; simp only [List.foldl_cons]; rw [forget_comm]
  | trans _ _ ih1 ih2 => intro c; rw [ih1, ih2]

theorem foldl_forget_keys (l : List Str) : ∀ c : Cache D, ∀ k, k ∈ (l.foldl forget c).items.keys ↔ k ∉ l ∧ k ∈ c.items.keys := by
  induction l with
  | nil => intro c k; simp
  | cons x l ih =>
    intro c k
    simp only [List.foldl_cons]
    rw [ih]
    simp only [forget, AMap.mem_keys_del, List.mem_cons, not_or]
    constructor
    · rintro ⟨h1, h2, h3⟩; exact ⟨⟨h2, h1⟩, h3⟩
    · rintro ⟨⟨h1, h2⟩, h3⟩; exact ⟨h2, h1, h3⟩

theorem foldl_forget_hasValidator (l : List Str) : ∀ c : Cache D, (l.foldl forget c).hasValidator = c.hasValidator := by
  induction l with
  | nil => intro c; rfl
  | cons x l ih => intro c; simp only [List.foldl_cons]; rw [ih]; rfl

theorem verifyLoop_foldl (env : Env) (ans : Str → Bool) (hv : ∀ k x, env.valid k x = ans k) : ∀ (l : List (Str × Entry D)) (c : Cache D) (i : Int),
    (verifyLoop env l c i).1 = ((l.map Prod.fst).filter fun k => !ans k).foldl forget c := by
  intro l
  induction l with
  | nil => intro c i; rfl
  | cons p l ih =>
    intro c i
    obtain ⟨k, x⟩ := p
    simp only [verifyLoop, hv, List.map_cons, List.filter_cons]
    split
    · rw [ih]; rfl
    · rw [ih]

theorem verify_loop {st' : St D} {c1 : Cache D} {t : Nat} (ans : Str → Bool) (hend : ∀ u, st'.pcs u = .idle) :
    ∀ (n : Nat) (as : List (Act D)) (st : St D) (seen dels : List Str), as.length ≤ n → st.pcs t = .verifying st.left.length →
      (∀ u, u ≠ t → st.pcs u = .idle) → Rep st.sh (dels.foldl forget c1) → Serial st as → Thorough st seen as →
      runActs st as = some st' → dels.Nodup → (∀ k ∈ dels, k ∈ seen) →
      (∀ k ∈ seen, k ∈ c1.items.keys ∧ (k ∈ dels ↔ c1.hasValidator = true ∧ ans k = false)) → (∀ k, k ∉ seen → verdict as k = ans k) →
      ∃ dels' seen' : List Str, dels'.Nodup ∧ (∀ k, k ∈ dels' ↔ k ∈ c1.items.keys ∧ c1.hasValidator = true ∧ ans k = false) ∧
        Done st st' seen' as (dels'.foldl forget c1) [] := by
  intro n
  induction n with
  | zero =>
    intro as st seen dels hl hp hidle hr hs hth hrun
    cases as with
    | nil =>
      simp only [runActs, Option.some.injEq] at hrun; subst hrun
      rw [hend t] at hp; cases hp
    | cons _ _ => simp at hl
  | succ n ih =>
    intro as st seen dels hl hp hidle hr hs hth hrun hnd hds hseen hver
    have hval : c1.hasValidator = st.sh.hasValidator := by rw [← foldl_forget_hasValidator dels c1]; exact hr.holds.hasValidator
    have hkeys : ∀ k, k ∈ st.sh.items.keys ↔ k ∉ dels ∧ k ∈ c1.items.keys := by
      intro k; rw [← foldl_forget_keys dels c1 k, hr.holds.items.keys]
    obtain ⟨a, as1, st1, rfl, ho, ha, hs1, hrun1⟩ := advance (t := t) (by rw [hp]; nofun) hs hrun hend
    rcases next_verifying hp ho ha with ⟨k, ok, rfl⟩ | rfl
    · have hth1 := hth.2 _ ha
      have hk : k ∉ seen := hth.1
      have hok : ans k = ok := by rw [← hver k hk]; simp [verdict, first]
      simp only [apply, hp, ranged, List.drop_length, List.any_nil, Bool.or_false] at ha
      cases hg : st.sh.items.get k with
      | none => rw [hg] at ha; cases ha
      | some id =>
        rw [hg] at ha
        simp only [Option.isSome_some] at ha
        have hkin : k ∈ st.sh.items.keys := (AMap.mem_keys_iff _ _).2 ⟨id, hg⟩
        have hkc := (hkeys k).1 hkin
        have hver1 : ∀ k', k' ∉ k :: seen → verdict as1 k' = ans k' := by
          intro k' hk'
          simp only [List.mem_cons, not_or] at hk'
          rw [← hver k' hk'.2]
          simp [verdict, first, Ne.symm hk'.1]
        split at ha
        · rename_i hbad
          simp only [Option.some.injEq] at ha; subst ha
          simp only [Bool.and_eq_true, Bool.not_eq_true'] at hbad
          obtain ⟨a, as2, st2, rfl, ho, ha, hs2, hrun2⟩ := advance (t := t) (by simp [upd]) hs1 hrun1 hend
          obtain rfl := next_vdoomed (k := k) (m := st.left.length) (by simp [upd]) ho ha
          have hth2 := hth1.2 _ ha
          simp only [apply, upd_at] at ha
          split at ha <;> simp at ha
          rename_i hx1 hx2
          cases hx2
          subst ha
          have hlen : as2.length ≤ n := by simp only [List.length_cons] at hl; omega
          obtain ⟨dels', seen', h1, h2, h3⟩ := ih as2 _ (k :: seen) (dels ++ [k]) hlen (upd_at _ _ _) (upd_idle (upd_idle hidle))
            (by rw [List.foldl_append]; exact hr.forget k) hs2 hth2 hrun2
            (by rw [List.nodup_append]; exact ⟨hnd, by simp, by rintro x hx y hy rfl; simp only [List.mem_singleton] at hy; subst hy; exact hkc.1 hx⟩)
            (by
              intro x hx
              simp only [List.mem_append, List.mem_singleton] at hx
              rcases hx with hx | hx
              · exact List.mem_cons_of_mem _ (hds x hx)
              · simp [hx])
            (by
              intro x hx
              simp only [List.mem_cons] at hx
              rcases hx with rfl | hx
              · exact ⟨hkc.2, by simp [hval, hbad, hok]⟩
              · have hne : x ≠ k := by rintro rfl; exact hk hx
                obtain ⟨h1, h2⟩ := hseen x hx
                exact ⟨h1, by simp [hne, h2]⟩)
            (by intro x hx; rw [← hver1 x hx]; rfl)
          have hd := h3.step (st := st) (a := .verifyDel t) rfl rfl
          exact ⟨dels', seen', h1, h2, hd.step (a := .verifyPick t k ok) rfl rfl⟩
        · rename_i hgood
          simp only [Option.some.injEq] at ha; subst ha
          have hlen : as1.length ≤ n := by simp only [List.length_cons] at hl; omega
          obtain ⟨dels', seen', h1, h2, h3⟩ := ih as1 _ (k :: seen) dels hlen hp hidle hr hs1 hth1 hrun1 hnd
            (fun x hx => List.mem_cons_of_mem _ (hds x hx))
            (by
              intro x hx
              simp only [List.mem_cons] at hx
              rcases hx with rfl | hx
              · refine ⟨hkc.2, iff_of_false hkc.1 ?_⟩
                rw [hval, hok]
                rintro ⟨h1, h2⟩
                exact hgood (by simp [h1, h2])
              · exact hseen x hx) hver1
          exact ⟨dels', seen', h1, h2, h3.step (a := .verifyPick t k ok) rfl rfl⟩
    · have hth1 := hth.2 _ ha
      have hall := hth.1
      simp only [apply, hp, Option.some.injEq] at ha; subst ha
      refine ⟨dels, seen, hnd, ?_, as1, _, Nat.le_succ _, rfl, hs1, hth1, hrun1, upd_all_idle hidle, hr, by simp⟩
      intro k
      constructor
      · intro hk
        obtain ⟨h1, h2⟩ := hseen k (hds k hk)
        exact ⟨h1, h2.1 hk⟩
      · rintro ⟨h1, h2, h3⟩
        by_cases hk : k ∈ dels
        · exact hk
        · obtain ⟨id, hid⟩ := (AMap.mem_keys_iff _ _).1 ((hkeys k).2 ⟨hk, h1⟩)
          have := hall (by rw [← hval]; exact h2) k id hid
          exact (hseen k this).2.2 ⟨h2, h3⟩

theorem clean_zero_ok (s : Shared D) (env : Env) : (clean s env 0).2 = true := by
  unfold clean
  simp

theorem clean_verdicts (c : Cache D) (env : Env) (p : Int) (f : Str → Int → Bool) :
    Cache.clean c { env with valid := f } p = Cache.clean c env p := rfl

theorem verify_block {st st' : St D} {c : Cache D} {t : Nat} {env : Env} {seen : List Str} {as : List (Act D)} (hidle : ∀ u, st.pcs u = .idle)
    (hr : Rep st.sh c) (hs : Serial st (.verifyStart t env :: as)) (hth : Thorough st seen (.verifyStart t env :: as))
    (hrun : runActs st (.verifyStart t env :: as) = some st') (hend : ∀ u, st'.pcs u = .idle) :
    (∃ n, (Cache.verify c { env with valid := fun k _ => verdict as k }).2 = some n) ∧
    ∃ seen', Done st st' seen' as (Cache.verify c { env with valid := fun k _ => verdict as k }).1 [] := by
  obtain ⟨st1, ha, hrun1⟩ := runActs_cons hrun
  have hs1 := hs.2.2 _ ha
  have hth1 := hth.2 _ ha
  cases hlk : st.sh.locked with
  | true => simp [apply, hlk] at ha
  | false =>
  simp only [apply, hlk, hidle t, Option.some.injEq] at ha
  obtain ⟨hrc, hflag⟩ := hr.clean env 0
  rw [clean_zero_ok] at ha hflag
  simp only [if_true, List.append_nil] at ha
  subst ha
  unfold Cache.verify
  rw [clean_verdicts]
  generalize hc1 : Cache.clean c env 0 = r at *
  obtain ⟨c1, o⟩ := r
  cases o with
  | none => simp at hflag
  | some i =>
    dsimp only at hrc ⊢
    obtain ⟨dels, seen', h1, h2, h3⟩ := verify_loop (c1 := c1) (t := t) (fun k => verdict as k) hend as.length as _ [] [] (Nat.le_refl _) (upd_at _ _ _)
      (upd_idle fun u _ => hidle u) hrc hs1 hth1 hrun1 List.nodup_nil (by simp) (by simp) (fun _ _ => rfl)
    have hd : Done st st' seen' as (dels.foldl forget c1) [] := h3
    split
    · rename_i hv
      refine ⟨⟨_, rfl⟩, seen', ?_⟩
      dsimp only
      rw [verifyLoop_foldl _ (fun k => verdict as k) (fun _ _ => rfl)]
      rw [← foldl_forget_perm (l := dels) ?_]
      · exact hd
      · refine (List.perm_ext_iff_of_nodup h1 ?_).2 ?_
        · refine List.Nodup.sublist List.filter_sublist ?_
          have := hrc.nodup
          rw [AMap.Nodup, ← hrc.holds.items.keys] at this
          exact this
        · intro k
          rw [h2]
          simp only [List.mem_filter, Bool.not_eq_true', AMap.keys, hv, true_and]
    · rename_i hv
      refine ⟨⟨_, rfl⟩, seen', ?_⟩
      have : dels = [] := by
        cases dels with
        | nil => rfl
        | cons x _ => exact absurd ((h2 x).1 (by simp)).2.1 hv
      rw [this] at hd
      exact hd

/-! ## Whole schedules -/

theorem run_cons (c : Cache D) (env : Env) (op : Op D) (h : List (Env × Op D)) :
    (run c ((env, op) :: h)).1 = (run (Cache.step c env op).1 h).1 ∧
    (run c ((env, op) :: h)).2 = (Cache.step c env op).2 :: (run (Cache.step c env op).1 h).2 := ⟨rfl, rfl⟩

/-- What holds at the end of a schedule, given what held before one of its calls. -/
def Ends (st st' : St D) (c : Cache D) (h : List (Env × Op D)) : Prop :=
  Holds st'.sh (run c h).1 ∧ st'.obs.filterMap said = st.obs.filterMap said ++ (run c h).2.filter isSaid

theorem Ends.call {st st1 st' : St D} {c : Cache D} {env : Env} {op : Op D} {h : List (Env × Op D)} {outs : List (Out D)}
    (he : Ends st1 st' (Cache.step c env op).1 h) (ho : st1.obs.filterMap said = st.obs.filterMap said ++ outs)
    (hout : [(Cache.step c env op).2].filter isSaid = outs) : Ends st st' c ((env, op) :: h) := by
  refine ⟨he.1, ?_⟩
  rw [he.2, ho, (run_cons c env op h).2, ← hout, List.append_assoc, ← List.filter_append]
  rfl

theorem serial_ends {st' : St D} (hend : ∀ u, st'.pcs u = .idle) : ∀ (n : Nat) (as : List (Act D)) (st : St D) (c : Cache D) (seen : List Str),
    as.length ≤ n → Serial st as → (∀ u, st.pcs u = .idle) → Rep st.sh c → Thorough st seen as → runActs st as = some st' →
    Ends st st' c (calls as) := by
  intro n
  induction n with
  | zero =>
    intro as st c seen hl hs hidle hr hth hrun
    cases as with
    | nil =>
      simp only [runActs, Option.some.injEq] at hrun; subst hrun
      exact ⟨hr.holds, by simp [calls, run]⟩
    | cons _ _ => simp at hl
  | succ n ih =>
    intro as st c seen hl hs hidle hr hth hrun
    cases as with
    | nil =>
      simp only [runActs, Option.some.injEq] at hrun; subst hrun
      exact ⟨hr.holds, by simp [calls, run]⟩
    | cons a as =>
      have hlen : as.length ≤ n := by simpa using hl
      obtain ⟨st1, ha, hrun1⟩ := runActs_cons hrun
      have hs1 := hs.2.2 _ ha
      have hth1 := hth.2 _ ha
      cases a with
      | set t env k d =>
        obtain ⟨rest, st2, h1, h2, h3, h4, h5, h6, h7, h8⟩ := set_block hidle hr hs hth hrun hend
        simp only [calls]
        rw [h2]
        refine (ih rest st2 _ seen (Nat.le_trans h1 hlen) h3 h6 h7 h4 h5).call (op := .set k d) h8 ?_
        simp only [Cache.step]
        split <;> simp [isSaid]
      | setFull t _ => simp [apply, hidle t] at ha
      | setOk t => simp [apply, hidle t] at ha
      | tear p => exact absurd rfl (hs.2.1 p)
      | del k =>
        simp only [apply] at ha
        split at ha <;> simp at ha
        subst ha
        exact (ih as _ _ seen hlen hs1 hidle (hr.del k) hth1 hrun1).call (op := .del k) (outs := []) (by simp) rfl
      | clean env p =>
        simp only [apply] at ha
        split at ha <;> simp at ha
        subst ha
        obtain ⟨h1, h2⟩ := hr.clean env p
        refine (ih as _ _ seen hlen hs1 hidle h1 hth1 hrun1).call (op := .clean p) (outs := if (CacheConc.clean st.sh env p).2 then [] else [.panicked]) ?_ ?_
        · simp only [List.filterMap_append]
          congr 1
          split <;> simp [said]
        · simp only [Cache.step, h2]
          cases (Cache.clean c env p).2 <;> simp [isSaid]
      | flush =>
        simp only [apply] at ha
        split at ha <;> simp at ha
        subst ha
        have : Rep { st.sh with items := [] } (Cache.flush c) :=
          ⟨⟨hr.holds.maxitems, hr.holds.expire, hr.holds.hasValidator, hr.holds.pile, .nil⟩, AMap.nodup_nil, by simp⟩
        exact (ih as _ _ seen hlen hs1 hidle this hth1 hrun1).call (op := .flush) (outs := []) (by simp) rfl
      | setMaxitems m =>
        simp only [apply, Option.some.injEq] at ha; subst ha
        have : Rep { st.sh with maxitems := m } { c with maxitems := m } :=
          ⟨⟨rfl, hr.holds.expire, hr.holds.hasValidator, hr.holds.pile, hr.holds.items⟩, hr.nodup, hr.ids⟩
        exact (ih as _ _ seen hlen hs1 hidle this hth1 hrun1).call (op := .setMaxitems m) (outs := []) (by simp) rfl
      | setExpire e =>
        simp only [apply, Option.some.injEq] at ha; subst ha
        have : Rep { st.sh with expire := e } { c with expire := e } :=
          ⟨⟨hr.holds.maxitems, rfl, hr.holds.hasValidator, hr.holds.pile, hr.holds.items⟩, hr.nodup, hr.ids⟩
        exact (ih as _ _ seen hlen hs1 hidle this hth1 hrun1).call (op := .setExpire e) (outs := []) (by simp) rfl
      | setValidator b =>
        simp only [apply, Option.some.injEq] at ha; subst ha
        have : Rep { st.sh with hasValidator := b } { c with hasValidator := b } :=
          ⟨⟨hr.holds.maxitems, hr.holds.expire, rfl, hr.holds.pile, hr.holds.items⟩, hr.nodup, hr.ids⟩
        exact (ih as _ _ seen hlen hs1 hidle this hth1 hrun1).call (op := .setValidator b) (outs := []) (by simp) rfl
      | getStart t k =>
        obtain ⟨rest, st2, h1, h2, h3, h4, h5, h6, h7, h8⟩ := get_block hidle hr hs hth hrun hend
        simp only [calls]
        rw [h2]
        exact (ih rest st2 _ seen (Nat.le_trans h1 hlen) h3 h6 h7 h4 h5).call (op := .get k) h8 rfl
      | verifyStart t env =>
        obtain ⟨⟨i, hi⟩, seen', rest, st2, h1, h2, h3, h4, h5, h6, h7, h8⟩ := verify_block hidle hr hs hth hrun hend
        simp only [calls]
        rw [h2]
        refine (ih rest st2 _ seen' (Nat.le_trans h1 hlen) h3 h6 h7 h4 h5).call (op := .verify) h8 ?_
        simp only [Cache.step, hi]
        rfl
      | checkVal t _ => simp [apply, hidle t] at ha
      | checkExp t _ => simp [apply, hidle t] at ha
      | writeRtime t _ => simp [apply, hidle t] at ha
      | loadPile t => simp [apply, hidle t] at ha
      | storePile t => simp [apply, hidle t] at ha
      | getDrop t => simp [apply, hidle t] at ha
      | verifyPick t _ _ => simp [apply, hidle t] at ha
      | verifyDel t => simp [apply, hidle t] at ha
      | verifyEnd t => simp [apply, hidle t] at ha

end Xcore.V1.CacheConc
