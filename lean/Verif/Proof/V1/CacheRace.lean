import Verif.Spec.V1.CacheRace
import Verif.Proof.V1.CacheConc

/-! # Which steps of a cache of version 1 race: proofs -/

namespace Xcore.V1.CacheConc

open Xcore.Cache (Env)
open Xcore.V1.Cache (Entry removeFromPile)

variable {D : Type}

/-! ## Every entry belongs to one key -/

/-- The number of maps that a Verify saw abandoned when it began. -/
def PC.since : PC → Option Nat
  | .verifying m | .vdoomed _ m => some m
  | _ => none

/-- Every entry belongs to one key, `f` tells which. -/
structure Owned (f : Nat → Str) (st : St D) : Prop where
  items : ∀ mp ∈ maps st, ∀ k id, AMap.get mp k = some id → f id = k ∧ id < st.sh.heap.length
  pcs : ∀ t k id, (st.pcs t).holds = some (k, id) → f id = k ∧ id < st.sh.heap.length
  since : ∀ t m, (st.pcs t).since = some m → m ≤ st.left.length

/-- How a step that makes no entry may change the state. -/
structure Small (st st' : St D) : Prop where
  heap : st'.sh.heap.length = st.sh.heap.length
  items : ∀ mp' ∈ maps st', ∀ k id, AMap.get mp' k = some id → ∃ mp ∈ maps st, AMap.get mp k = some id
  pcs : ∀ t k id, (st'.pcs t).holds = some (k, id) → (st.pcs t).holds = some (k, id) ∨ st.sh.items.get k = some id
  since : ∀ t m, (st'.pcs t).since = some m → (st.pcs t).since = some m ∨ m = st.left.length
  left : st.left.length ≤ st'.left.length

theorem mem_maps (st : St D) : st.sh.items ∈ maps st := by simp [maps]

theorem Owned.small {f : Nat → Str} {st st' : St D} (h : Owned f st) (hs : Small st st') : Owned f st' := by
  refine ⟨?_, ?_, ?_⟩
  · intro mp' hm k id hg
    obtain ⟨mp, h1, h2⟩ := hs.items mp' hm k id hg
    rw [hs.heap]; exact h.items mp h1 k id h2
  · intro t k id hg
    rw [hs.heap]
    rcases hs.pcs t k id hg with h1 | h1
    · exact h.pcs t k id h1
    · exact h.items _ (mem_maps st) k id h1
  · intro t m hg
    rcases hs.since t m hg with h1 | h1
    · exact Nat.le_trans (h.since t m h1) hs.left
    · rw [h1]; exact hs.left

/-- The map shrank, no map was abandoned, goroutine `t` moved. -/
theorem Small.of {st st' : St D} (hh : st'.sh.heap.length = st.sh.heap.length) (hl : st'.left = st.left)
    (hi : ∀ k id, st'.sh.items.get k = some id → st.sh.items.get k = some id)
    (hp : ∀ t k id, (st'.pcs t).holds = some (k, id) → (st.pcs t).holds = some (k, id) ∨ st.sh.items.get k = some id)
    (hs : ∀ t m, (st'.pcs t).since = some m → (st.pcs t).since = some m ∨ m = st.left.length) : Small st st' := by
  refine ⟨hh, ?_, hp, hs, by rw [hl]; exact Nat.le_refl _⟩
  intro mp' hm k id hg
  simp only [maps, hl, List.mem_append, List.mem_singleton] at hm
  rcases hm with hm | hm
  · exact ⟨mp', by simp [maps, hm], hg⟩
  · subst hm; exact ⟨_, mem_maps st, hi k id hg⟩

theorem moved_holds {st : St D} {t : Nat} {p : PC}
    (hp : ∀ k id, p.holds = some (k, id) → (st.pcs t).holds = some (k, id) ∨ st.sh.items.get k = some id) :
    ∀ t' k id, (upd st.pcs t p t').holds = some (k, id) → (st.pcs t').holds = some (k, id) ∨ st.sh.items.get k = some id := by
  intro t' k id h
  unfold upd at h
  split at h
  · rename_i e; subst e; exact hp k id h
  · exact Or.inl h

theorem moved_since {st : St D} {t : Nat} {p : PC} (hp : ∀ m, p.since = some m → (st.pcs t).since = some m ∨ m = st.left.length) :
    ∀ t' m, (upd st.pcs t p t').since = some m → (st.pcs t').since = some m ∨ m = st.left.length := by
  intro t' m h
  unfold upd at h
  split at h
  · rename_i e; subst e; exact hp m h
  · exact Or.inl h

theorem get_del_sub {m : AMap Nat} {k0 k : Str} {id : Nat} (h : AMap.get (AMap.del m k0) k = some id) : AMap.get m k = some id := by
  rw [AMap.get_del] at h; split at h
  · cases h
  · exact h

theorem clean_heap (s : Shared D) (env : Env) (p : Int) : (clean s env p).1.heap = s.heap := by
  unfold clean; dsimp only; repeat' split
  all_goals rfl

theorem clean_maxitems (s : Shared D) (env : Env) (p : Int) : (clean s env p).1.maxitems = s.maxitems := by
  unfold clean; dsimp only; repeat' split
  all_goals rfl

theorem clean_expire (s : Shared D) (env : Env) (p : Int) : (clean s env p).1.expire = s.expire := by
  unfold clean; dsimp only; repeat' split
  all_goals rfl

theorem clean_validator (s : Shared D) (env : Env) (p : Int) : (clean s env p).1.hasValidator = s.hasValidator := by
  unfold clean; dsimp only; repeat' split
  all_goals rfl

theorem apply_small {st st' : St D} (hn : st.sh.items.Nodup) (a : Act D) (hset : ∀ t env k d, a ≠ .set t env k d) (ha : apply st a = some st') :
    Small st st' := by
  cases a with
  | set t env k d => exact absurd rfl (hset t env k d)
  | flush =>
    simp only [CacheConc.apply] at ha
    split at ha
    · cases ha
    simp only [Option.some.injEq] at ha
    subst ha
    refine ⟨rfl, ?_, fun t k id h => Or.inl h, fun t m h => Or.inl h, by simp⟩
    intro mp' hm k id hg
    simp only [maps, List.mem_append, List.mem_singleton] at hm
    rcases hm with (hm | hm) | hm
    · exact ⟨mp', by simp [maps, hm], hg⟩
    · subst hm; exact ⟨_, mem_maps st, hg⟩
    · subst hm; simp at hg
  | _ =>
    simp only [CacheConc.apply] at ha
    (repeat' split at ha) <;> first
      | (cases ha; done)
      | (simp only [Option.some.injEq] at ha
         subst ha
         refine Small.of ?_ rfl ?_ ?_ ?_
         · first | rfl | (simp [clean_heap]; done)
         · first
             | exact fun k id h => h
             | exact fun k id h => get_del_sub h
             | exact fun k id h => (clean_spec _ _ _ hn).2.2 k id h
         · first
             | exact fun t k id h => Or.inl h
             | (refine moved_holds fun k id h => ?_
                simp_all [PC.holds]; done)
         · first
             | exact fun t k h => Or.inl h
             | (refine moved_since fun m h => ?_
                simp_all [PC.since]; done))

theorem Owned.set {f : Nat → Str} {st : St D} (h : Owned f st) (t : Nat) (env : Env) (k : Str) (d : D) {st' : St D}
    (ha : apply st (.set t env k d) = some st') : Owned (fun j => if j = st.sh.heap.length then k else f j) st' := by
  simp only [CacheConc.apply] at ha
  split at ha
  · simp only [Option.some.injEq] at ha
    subst ha
    have hheap : (CacheConc.set st.sh env k d).heap.length = st.sh.heap.length + 1 := by simp [CacheConc.set]
    have old : ∀ k' id, f id = k' ∧ id < st.sh.heap.length →
        (if id = st.sh.heap.length then k else f id) = k' ∧ id < (CacheConc.set st.sh env k d).heap.length := by
      intro k' id ⟨h1, h2⟩
      rw [hheap, if_neg (Nat.ne_of_lt h2)]
      exact ⟨h1, Nat.lt_succ_of_lt h2⟩
    refine ⟨?_, ?_, ?_⟩
    · intro mp hm k' id hg
      simp only [maps, List.mem_append, List.mem_singleton] at hm
      rcases hm with hm | hm
      · exact old k' id (h.items mp (by simp [maps, hm]) k' id hg)
      · subst hm
        have h1 : (st.sh.items.set k st.sh.heap.length).get k' = some id := hg
        rw [AMap.get_set] at h1
        split at h1
        · rename_i hk
          simp only [Option.some.injEq] at h1
          subst h1
          refine ⟨by simp [hk], ?_⟩
          show _ < (CacheConc.set st.sh env k d).heap.length
          rw [hheap]; exact Nat.lt_succ_self _
        · exact old k' id (h.items _ (mem_maps st) k' id h1)
    · intro t' k' id hg
      refine old k' id ?_
      simp only [upd] at hg
      split at hg
      · cases hg
      · exact h.pcs t' k' id hg
    · intro t' m hg
      simp only [upd] at hg
      split at hg
      · cases hg
      · exact h.since t' m hg
  · cases ha

theorem Owned.step {f : Nat → Str} {st st' : St D} (h : Owned f st) (hi : Inv st) (a : Act D) (ha : apply st a = some st') :
    ∃ f', Owned f' st' := by
  by_cases hset : ∃ t env k d, a = .set t env k d
  · obtain ⟨t, env, k, d, rfl⟩ := hset
    exact ⟨_, h.set t env k d ha⟩
  · exact ⟨f, h.small (apply_small hi.nodup a (fun t env k d e => hset ⟨t, env, k, d, e⟩) ha)⟩

theorem owned_init (m e : Int) : Owned (fun _ => []) (init m e : St D) := by
  refine ⟨?_, ?_, ?_⟩
  · intro mp hm k id hg
    simp only [maps, init, List.nil_append, List.mem_singleton] at hm
    subst hm; simp at hg
  · intro t k id hg; simp [init, PC.holds] at hg
  · intro t m hg; simp [init, PC.since] at hg

theorem owned_run {f : Nat → Str} {st st' : St D} (h : Owned f st) (hi : Inv st) (as : List (Act D)) (hr : runActs st as = some st') :
    ∃ f', Owned f' st' := by
  induction as generalizing f st with
  | nil => simp only [runActs, Option.some.injEq] at hr; subst hr; exact ⟨f, h⟩
  | cons a as ih =>
    simp only [runActs] at hr
    split at hr
    · rename_i st1 h1
      obtain ⟨f1, hf1⟩ := h.step hi a h1
      exact ih hf1 (hi.step a h1) hr
    · cases hr

/-! ## Who accesses which cell -/

theorem mem_pickCells {st : St D} {m : Nat} {k : Str} {x : Access} :
    x ∈ pickCells st m k ↔ ∃ j items id, m ≤ j ∧ (maps st)[j]? = some items ∧ AMap.get items k = some id ∧
      (x = ⟨.map j, false, false⟩ ∨ x = ⟨.ctime id, false, false⟩) := by
  unfold pickCells
  simp only [List.mem_flatMap, List.mem_range]
  constructor
  · rintro ⟨j, hj, hx⟩
    split at hx
    · rename_i hm
      split at hx
      · rename_i id hid
        obtain ⟨items, h1, h2⟩ := Option.bind_eq_some_iff.1 hid
        refine ⟨j, items, id, hm, h1, h2, ?_⟩
        simpa using hx
      · cases hx
    · cases hx
  · rintro ⟨j, items, id, hm, h1, h2, hx⟩
    refine ⟨j, ?_, ?_⟩
    · exact (List.getElem?_eq_some_iff.1 h1).1
    · rw [if_pos hm, h1]
      simp only [Option.bind_some, h2]
      simpa using hx

theorem mem_sizeCells {st : St D} {x : Access} : x ∈ sizeCells st ↔
    x = ⟨.maxitems, false, false⟩ ∨ (0 < st.sh.maxitems ∧ (x = ⟨.items, false, false⟩ ∨ x = ⟨.map st.left.length, false, false⟩)) := by
  unfold sizeCells
  split
  · simp_all
  · rename_i h
    simp [h]

theorem mem_cleanCells {st : St D} {x : Access} : x ∈ cleanCells st ↔
    x = ⟨.expire, false, true⟩ ∨ x = ⟨.items, false, true⟩ ∨ x = ⟨.map st.left.length, true, true⟩ ∨ x = ⟨.pile, true, true⟩ ∨
      ∃ p ∈ st.sh.items, x = ⟨.ctime p.2, false, true⟩ := by
  unfold cleanCells
  simp only [List.mem_append, List.mem_cons, List.not_mem_nil, or_false, List.mem_map, or_assoc]
  constructor
  · rintro (h | h | h | h | ⟨p, h1, h2⟩)
    · exact Or.inl h
    · exact Or.inr (Or.inl h)
    · exact Or.inr (Or.inr (Or.inl h))
    · exact Or.inr (Or.inr (Or.inr (Or.inl h)))
    · exact Or.inr (Or.inr (Or.inr (Or.inr ⟨p, h1, h2.symm⟩)))
  · rintro (h | h | h | h | ⟨p, h1, h2⟩)
    · exact Or.inl h
    · exact Or.inr (Or.inl h)
    · exact Or.inr (Or.inr (Or.inl h))
    · exact Or.inr (Or.inr (Or.inr (Or.inl h)))
    · exact Or.inr (Or.inr (Or.inr (Or.inr ⟨p, h1, h2.symm⟩)))

theorem acc_pile {st : St D} {mv : Move D} {w l : Bool} (h : ⟨.pile, w, l⟩ ∈ mv.cells st) :
    (w = true → WritesPile mv) ∧ (l = false → MovesKey mv) := by
  cases mv with
  | count => simp [Move.cells] at h
  | act a =>
    cases a <;> simp only [Move.cells] at h <;> (repeat' split at h) <;>
      simp_all [mem_pickCells, mem_sizeCells, mem_cleanCells, delCells, WritesPile, MovesKey]

theorem acc_data {f : Nat → Str} {st : St D} (ho : Owned f st) {mv : Move D} {id : Nat} {w l : Bool} (h : ⟨.data id, w, l⟩ ∈ mv.cells st) :
    (w = true → l = true ∧ id = st.sh.heap.length) ∧ (l = true ∨ id < st.sh.heap.length) := by
  cases mv with
  | count => simp [Move.cells] at h
  | act a =>
    cases a with
    | storePile t =>
      simp only [Move.cells] at h
      cases hq : st.pcs t with
      | adding k id' p =>
        rw [hq] at h
        simp only [List.mem_cons, Access.mk.injEq, reduceCtorEq, false_and, Cell.data.injEq, List.not_mem_nil, or_false, false_or] at h
        obtain ⟨rfl, rfl, rfl⟩ := h
        exact ⟨by simp, Or.inr (ho.pcs t k _ (by rw [hq]; rfl)).2⟩
      | _ => rw [hq] at h; simp at h
    | _ =>
      simp only [Move.cells] at h <;> (repeat' split at h) <;>
        simp_all [mem_pickCells, mem_sizeCells, mem_cleanCells, delCells]

theorem acc_rtime {st : St D} {mv : Move D} {id : Nat} {w l : Bool} (h : ⟨.rtime id, w, l⟩ ∈ mv.cells st) :
    (l = true ∧ id = st.sh.heap.length) ∨ ∃ t now k, mv = .act (.writeRtime t now) ∧ st.pcs t = .good k id := by
  cases mv with
  | count => simp [Move.cells] at h
  | act a =>
    cases a <;> simp only [Move.cells] at h <;> (repeat' split at h) <;>
      simp_all [mem_pickCells, mem_sizeCells, mem_cleanCells, delCells]

theorem acc_items {st : St D} {mv : Move D} {w l : Bool} (h : ⟨.items, w, l⟩ ∈ mv.cells st) :
    (w = true → l = true ∧ mv = .act .flush) ∧ (l = true ∨ Peeks st false mv) := by
  cases mv with
  | count => simp_all [Move.cells]
  | act a =>
    cases a <;> simp only [Move.cells] at h <;> (repeat' split at h) <;>
      simp_all [mem_pickCells, mem_sizeCells, mem_cleanCells, delCells, Peeks]
    all_goals (rcases h with h | h <;> simp_all)

theorem acc_map {st : St D} {mv : Move D} {j : Nat} {w l : Bool} (h : ⟨.map j, w, l⟩ ∈ mv.cells st) :
    (w = true → l = true ∧ j = st.left.length ∧ WritesMap mv) ∧ (l = true ∨ (j = st.left.length → Peeks st true mv)) := by
  cases mv with
  | count => simp_all [Move.cells]
  | act a =>
    cases a with
    | verifyPick t k ok =>
      simp only [Move.cells] at h
      split at h
      · split at h
        · rename_i hv
          simp only [List.cons_append, List.nil_append, List.mem_cons, mem_pickCells, Access.mk.injEq, reduceCtorEq, false_and, false_or] at h
          obtain ⟨j', items, id, _, h1, h2, h3⟩ := h
          simp only [Cell.map.injEq, or_false, reduceCtorEq] at h3
          obtain ⟨rfl, rfl, rfl⟩ := h3
          refine ⟨by simp, Or.inr ?_⟩
          intro hj
          subst hj
          simp only [maps, List.getElem?_concat_length, Option.some.injEq] at h1
          subst h1
          simp [Peeks, h2, hv]
        · cases h
      · cases h
    | verifyEnd t =>
      simp only [Move.cells] at h
      split at h
      · split at h
        · rename_i hv
          simp only [List.mem_cons, Access.mk.injEq, reduceCtorEq, false_and, false_or, List.mem_map] at h
          obtain ⟨j', _, _, rfl, rfl⟩ := h
          exact ⟨by simp, Or.inr fun _ => hv⟩
        · simp at h
      · cases h
    | setFull t env =>
      simp only [Move.cells, List.mem_append, mem_sizeCells, mem_cleanCells] at h
      simp_all [WritesMap, Peeks]
      rcases h with h | h <;> simp_all
    | _ =>
      simp only [Move.cells] at h <;> (repeat' split at h) <;>
        simp_all [mem_sizeCells, mem_cleanCells, delCells, Peeks, WritesMap]

theorem acc_ctime {f : Nat → Str} {st : St D} (ho : Owned f st) {mv : Move D} {id : Nat} {w l : Bool} (h : ⟨.ctime id, w, l⟩ ∈ mv.cells st) :
    (w = true → l = true ∧ id = st.sh.heap.length) ∧ (l = true ∨ id < st.sh.heap.length) := by
  have hp : ∀ t k id, (st.pcs t).holds = some (k, id) → id < st.sh.heap.length := fun t k id h => (ho.pcs t k id h).2
  cases mv with
  | count => simp [Move.cells] at h
  | act a =>
    cases a with
    | verifyPick t k ok =>
      simp only [Move.cells] at h
      split at h
      · split at h
        · simp only [List.cons_append, List.nil_append, List.mem_cons, mem_pickCells, Access.mk.injEq, reduceCtorEq, false_and, false_or] at h
          obtain ⟨j', items, id, _, h1, h2, h3⟩ := h
          simp only [Cell.ctime.injEq, reduceCtorEq, false_or] at h3
          obtain ⟨rfl, rfl, rfl⟩ := h3
          exact ⟨by simp, Or.inr (ho.items items (List.mem_of_getElem? h1) k _ h2).2⟩
        · cases h
      · cases h
    | checkVal t now =>
      simp only [Move.cells] at h
      split at h
      · rename_i k id' hq
        simp only [List.mem_cons, Access.mk.injEq, reduceCtorEq, false_and, Cell.ctime.injEq, List.not_mem_nil, or_false, false_or] at h
        obtain ⟨rfl, rfl, rfl⟩ := h
        exact ⟨by simp, Or.inr (hp t k _ (by rw [hq]; rfl))⟩
      · cases h
    | checkExp t now =>
      simp only [Move.cells] at h
      split at h
      · rename_i k id' hq
        simp only [List.mem_cons, Access.mk.injEq, reduceCtorEq, false_and, Cell.ctime.injEq, List.not_mem_nil, or_false, false_or] at h
        obtain ⟨rfl, rfl, rfl⟩ := h
        exact ⟨by simp, Or.inr (hp t k _ (by rw [hq]; rfl))⟩
      · cases h
    | storePile t =>
      simp only [Move.cells] at h
      split at h <;> simp at h
    | _ =>
      simp only [Move.cells] at h <;> (repeat' split at h) <;>
        simp_all [mem_sizeCells, mem_cleanCells, delCells]
      all_goals (obtain ⟨_, _, _, _, rfl, rfl⟩ := h; simp)

/-- The cell of an exported field. -/
def Field.cell : Field → Cell
  | .maxitems => .maxitems
  | .expire => .expire
  | .validator => .validator

theorem acc_field {st : St D} {mv : Move D} (f : Field) {w l : Bool} (h : ⟨f.cell, w, l⟩ ∈ mv.cells st) :
    (w = true → Assigns f mv) ∧ Uses st f mv := by
  cases mv with
  | count => cases f <;> simp [Move.cells, Field.cell] at h
  | act a =>
    cases f <;> cases a <;> simp only [Move.cells, Field.cell] at h <;> (repeat' split at h) <;>
      simp_all [mem_pickCells, mem_sizeCells, mem_cleanCells, delCells, Assigns, Uses]

/-! ## The kinds of races -/

/-- A write and another access of the same cell, not both locked. -/
theorem clash_of {f : Nat → Str} {st : St D} (ho : Owned f st) {a b : Move D} {cell : Cell} {w la lb : Bool} (hx : ¬ (la = true ∧ lb = true))
    (ha : ⟨cell, true, la⟩ ∈ a.cells st) (hb : ⟨cell, w, lb⟩ ∈ b.cells st) : Clash st a b ∨ Clash st b a := by
  have field : ∀ g : Field, cell = g.cell → Clash st a b ∨ Clash st b a := by
    intro g hg
    subst hg
    exact Or.inl (.field g ((acc_field g ha).1 rfl) (acc_field g hb).2)
  cases cell with
  | maxitems => exact field .maxitems rfl
  | expire => exact field .expire rfl
  | validator => exact field .validator rfl
  | pile =>
    have h1 := (acc_pile ha).1 rfl
    cases lb with
    | false => exact Or.inl (.pile h1 ((acc_pile hb).2 rfl))
    | true =>
      cases la with
      | true => exact absurd ⟨rfl, rfl⟩ hx
      | false =>
        have h2 := (acc_pile ha).2 rfl
        cases w with
        | true => exact Or.inr (.pile ((acc_pile hb).1 rfl) h2)
        | false =>
          -- a locked read of the pile that is no write: there is none
          exfalso
          cases b with
          | count => simp [Move.cells] at hb
          | act x =>
            cases x <;> simp only [Move.cells] at hb <;> (repeat' split at hb) <;>
              simp_all [mem_pickCells, mem_sizeCells, mem_cleanCells, delCells]
  | data id =>
    obtain ⟨rfl, rfl⟩ := (acc_data ho ha).1 rfl
    rcases (acc_data ho hb).2 with rfl | h2
    · exact absurd ⟨rfl, rfl⟩ hx
    · exact absurd h2 (Nat.lt_irrefl _)
  | items =>
    obtain ⟨rfl, rfl⟩ := (acc_items ha).1 rfl
    rcases (acc_items hb).2 with rfl | h2
    · exact absurd ⟨rfl, rfl⟩ hx
    · exact Or.inl (.flush h2)
  | map j =>
    obtain ⟨rfl, rfl, h1⟩ := (acc_map ha).1 rfl
    rcases (acc_map hb).2 with rfl | h2
    · exact absurd ⟨rfl, rfl⟩ hx
    · exact Or.inl (.map h1 (h2 rfl))
  | ctime id =>
    obtain ⟨rfl, rfl⟩ := (acc_ctime ho ha).1 rfl
    rcases (acc_ctime ho hb).2 with rfl | h2
    · exact absurd ⟨rfl, rfl⟩ hx
    · exact absurd h2 (Nat.lt_irrefl _)
  | rtime id =>
    have lt : ∀ t k, st.pcs t = .good k st.sh.heap.length → False := fun t k h =>
      absurd (ho.pcs t k _ (by rw [h]; rfl)).2 (Nat.lt_irrefl _)
    rcases acc_rtime ha with ⟨rfl, rfl⟩ | ⟨t, now, k, rfl, h1⟩ <;> rcases acc_rtime hb with ⟨rfl, h3⟩ | ⟨t', now', k', rfl, h2⟩
    · exact absurd ⟨rfl, rfl⟩ hx
    · exact (lt t' k' h2).elim
    · subst h3; exact (lt t k h1).elim
    · have e1 := (ho.pcs t k id (by rw [h1]; rfl)).1
      have e2 := (ho.pcs t' k' id (by rw [h2]; rfl)).1
      have e : k = k' := e1.symm.trans e2
      subst e
      exact Or.inl (.rtime h1 h2)

theorem race_clash {f : Nat → Str} {st : St D} (ho : Owned f st) {a b : Move D} (h : Race st a b) : Clash st a b ∨ Clash st b a := by
  obtain ⟨_, ⟨c, wa, la⟩, ha, ⟨c', wb, lb⟩, hb, hc, hw, hl⟩ := h
  dsimp only at hc hw hl
  subst hc
  rcases hw with rfl | rfl
  · exact clash_of ho hl ha hb
  · exact (clash_of ho (fun h => hl ⟨h.2, h.1⟩) hb ha).symm

theorem uses_cell {st : St D} {f : Field} {mv : Move D} (hab : mv.able st = true) (h : Uses st f mv) : ∃ w l, ⟨f.cell, w, l⟩ ∈ mv.cells st := by
  cases mv with
  | count => cases f <;> cases h
  | act a =>
    cases f <;> cases a <;> simp only [Uses] at h <;>
      simp only [Move.able, CacheConc.apply] at hab <;> simp only [Move.cells, Field.cell] <;>
      (repeat' split at hab) <;> simp_all [mem_cleanCells, mem_sizeCells]

theorem assigns_cell {st : St D} {f : Field} {mv : Move D} (h : Assigns f mv) : ⟨f.cell, true, false⟩ ∈ mv.cells st := by
  cases mv with
  | count => cases f <;> cases h
  | act a => cases f <;> cases a <;> first | exact False.elim h | simp [Move.cells, Field.cell]

theorem writes_cell {st : St D} {mv : Move D} (h : WritesMap mv) : ⟨.map st.left.length, true, true⟩ ∈ mv.cells st := by
  cases mv with
  | count => cases h
  | act a => cases a <;> first | exact False.elim h | simp [Move.cells, mem_cleanCells, delCells]

theorem writesPile_cell {st : St D} {mv : Move D} (h : WritesPile mv) : ∃ l, ⟨.pile, true, l⟩ ∈ mv.cells st := by
  cases mv with
  | count => cases h
  | act a =>
    cases a with
    | storePile t => exact ⟨false, by simp [Move.cells]⟩
    | _ => first
      | exact False.elim h
      | exact ⟨true, by simp [Move.cells, mem_cleanCells, delCells]⟩

theorem moves_cell {st : St D} {mv : Move D} (h : MovesKey mv) : ∃ w, ⟨.pile, w, false⟩ ∈ mv.cells st := by
  cases mv with
  | count => cases h
  | act a =>
    cases a with
    | storePile t => exact ⟨true, by simp [Move.cells]⟩
    | loadPile t => exact ⟨false, by simp [Move.cells]⟩
    | _ => exact False.elim h

theorem peeks_items {st : St D} {here : Bool} {mv : Move D} (hab : mv.able st = true) (h : Peeks st here mv) :
    ⟨.items, false, false⟩ ∈ mv.cells st := by
  cases mv with
  | count => cases h
  | act a =>
    cases a <;> first
      | exact False.elim h
      | (simp only [Move.able, CacheConc.apply] at hab
         simp only [Move.cells]
         simp only [Peeks] at h
         (repeat' split at hab) <;> simp_all [mem_sizeCells]; done)

theorem peeks_map {f : Nat → Str} {st : St D} (ho : Owned f st) {mv : Move D} (hab : mv.able st = true) (h : Peeks st true mv) :
    ⟨.map st.left.length, false, false⟩ ∈ mv.cells st := by
  cases mv with
  | count => cases h
  | act a =>
    cases a with
    | verifyPick t k ok =>
      simp only [Peeks, true_implies] at h
      obtain ⟨hv, h⟩ := h
      obtain ⟨id, hid⟩ := Option.isSome_iff_exists.1 h
      cases hq : st.pcs t with
      | verifying m =>
        simp only [Move.cells, hq, hv, if_true, List.mem_append, mem_pickCells]
        exact Or.inr ⟨st.left.length, st.sh.items, id, ho.since t m (by rw [hq]; rfl), by simp [maps], hid, Or.inl rfl⟩
      | _ => simp [Move.able, CacheConc.apply, hq] at hab
    | verifyEnd t =>
      simp only [Peeks] at h
      cases hq : st.pcs t with
      | verifying m =>
        have hm := ho.since t m (by rw [hq]; rfl)
        simp [Move.cells, hq, h, maps, hm]
      | _ => simp [Move.able, CacheConc.apply, hq] at hab
    | setFull t env =>
      simp only [Peeks] at h
      simp [Move.cells, mem_sizeCells, h]
    | setOk t =>
      simp only [Peeks] at h
      simp [Move.cells, mem_sizeCells, h]
    | _ => cases h

theorem clash_race {f : Nat → Str} {st : St D} (ho : Owned f st) {a b : Move D} (hc : Concurrent st a b) (h : Clash st a b) :
    ∃ cell w la lb, ⟨cell, true, la⟩ ∈ a.cells st ∧ ⟨cell, w, lb⟩ ∈ b.cells st ∧ ¬ (la = true ∧ lb = true) := by
  cases h with
  | pile h1 h2 =>
    obtain ⟨l, h1⟩ := writesPile_cell h1
    obtain ⟨w, h2⟩ := moves_cell h2
    exact ⟨.pile, w, l, false, h1, h2, by simp⟩
  | @rtime t t' now now' k id h1 h2 => exact ⟨.rtime id, true, false, false, by simp [Move.cells, h1], by simp [Move.cells, h2], by simp⟩
  | map h1 h2 => exact ⟨_, false, true, false, writes_cell h1, peeks_map ho hc.2.1 h2, by simp⟩
  | flush h2 => exact ⟨.items, false, true, false, by simp [Move.cells], peeks_items hc.2.1 h2, by simp⟩
  | field g h1 h2 =>
    obtain ⟨w, l, hw⟩ := uses_cell hc.2.1 h2
    exact ⟨_, w, false, l, assigns_cell h1, hw, by simp⟩

theorem concurrent_comm {st : St D} {a b : Move D} (h : Concurrent st a b) : Concurrent st b a :=
  ⟨h.2.1, h.1, fun t hb ha => h.2.2 t ha hb⟩

theorem race_iff {f : Nat → Str} {st : St D} (ho : Owned f st) (a b : Move D) :
    Race st a b ↔ Concurrent st a b ∧ (Clash st a b ∨ Clash st b a) := by
  constructor
  · intro h; exact ⟨h.1, race_clash ho h⟩
  · rintro ⟨hc, h | h⟩
    · obtain ⟨cell, w, la, lb, h1, h2, h3⟩ := clash_race ho hc h
      exact ⟨hc, _, h1, _, h2, rfl, Or.inl rfl, h3⟩
    · obtain ⟨cell, w, la, lb, h1, h2, h3⟩ := clash_race ho (concurrent_comm hc) h
      exact ⟨hc, _, h2, _, h1, rfl, Or.inr rfl, fun h => h3 ⟨h.2, h.1⟩⟩

/-! ## The accesses fit the steps -/

/-- The heap, the fields and the abandoned maps stay; only the map and the pile change. -/
theorem sameContent_of {st st' : St D} (hm : st'.sh.maxitems = st.sh.maxitems) (he : st'.sh.expire = st.sh.expire)
    (hv : st'.sh.hasValidator = st.sh.hasValidator) (hl : st'.left = st.left) (hh : st'.sh.heap = st.sh.heap) (c : Cell)
    (hp : st'.sh.pile = st.sh.pile ∨ c ≠ .pile) (hi : st'.sh.items = st.sh.items ∨ c ≠ .map st.left.length) : SameContent st st' c := by
  cases c with
  | maxitems => exact hm
  | expire => exact he
  | validator => exact hv
  | items => simp only [SameContent, hl]
  | map n =>
    intro items h
    rcases hi with hi | hi
    · rw [hl, hi]; exact h
    · rw [hl]
      have hne : n ≠ st.left.length := fun e => hi (by rw [e])
      rcases Nat.lt_or_ge n st.left.length with hlt | hge
      · rw [List.getElem?_append_left hlt] at h ⊢; exact h
      · rw [List.getElem?_eq_none (by simp; omega)] at h; cases h
  | pile => rcases hp with hp | hp
            · exact hp
            · exact absurd rfl hp
  | ctime id => simp only [SameContent, hh]
  | rtime id => simp only [SameContent, hh]
  | data id => simp only [SameContent, hh]

theorem modify_other {heap : List (Entry D)} {id : Nat} {f : Entry D → Entry D} {α : Type} (g : Entry D → α) (hg : ∀ e, g (f e) = g e) (j : Nat) :
    (heap.modify id f)[j]?.map g = heap[j]?.map g := by
  rw [List.getElem?_modify]
  cases heap[j]? with
  | none => rfl
  | some e => simp only [Option.map_eq_map, Option.map_some]; split <;> simp [hg]

theorem modify_ne {heap : List (Entry D)} {id j : Nat} {f : Entry D → Entry D} (h : j ≠ id) : (heap.modify id f)[j]? = heap[j]? := by
  rw [List.getElem?_modify]
  cases heap[j]? with
  | none => rfl
  | some e => simp [h.symm]

theorem writes_declared {st st' : St D} (a : Act D) (hab : (Move.act a).able st = true) (ha : apply st a = some st') (c : Cell)
    (hc : ∀ l, ⟨c, true, l⟩ ∉ (Move.act a).cells st) : SameContent st st' c := by
  cases a with
  | tear p => simp [Move.able] at hab
  | set t env k d =>
    simp only [CacheConc.apply] at ha
    split at ha
    · simp only [Option.some.injEq] at ha
      subst ha
      have hc := hc true
      simp only [Move.cells, List.mem_cons, Access.mk.injEq, not_or, and_true] at hc
      obtain ⟨_, h1, h2, h3, h4, h5, _⟩ := hc
      have hj : ∀ j, j ≠ st.sh.heap.length → (CacheConc.set st.sh env k d).heap[j]? = st.sh.heap[j]? := by
        intro j hj
        simp only [CacheConc.set]
        rcases Nat.lt_or_ge j st.sh.heap.length with hlt | hge
        · rw [List.getElem?_append_left hlt]
        · rw [List.getElem?_eq_none (by simp; omega), List.getElem?_eq_none hge]
      cases c with
      | map n =>
        intro items h
        have hne : n ≠ st.left.length := fun e => h1 (by rw [e])
        rcases Nat.lt_or_ge n st.left.length with hlt | hge
        · rw [List.getElem?_append_left hlt] at h ⊢; exact h
        · rw [List.getElem?_eq_none (by simp; omega)] at h; cases h
      | pile => exact absurd rfl h2
      | ctime j => simp only [SameContent]; rw [hj j (fun e => h3 (by rw [e]))]
      | rtime j => simp only [SameContent]; rw [hj j (fun e => h4 (by rw [e]))]
      | data j => simp only [SameContent]; rw [hj j (fun e => h5 (by rw [e]))]
      | _ => rfl
    · cases ha
  | flush =>
    simp only [CacheConc.apply] at ha
    split at ha
    · cases ha
    simp only [Option.some.injEq] at ha
    subst ha
    cases c with
    | items => exact absurd (by simp [Move.cells]) (hc true)
    | map n =>
      intro items h
      have : n < (st.left ++ [st.sh.items]).length := (List.getElem?_eq_some_iff.1 h).1
      show ((st.left ++ [st.sh.items]) ++ [[]])[n]? = some items
      rw [List.getElem?_append_left this]; exact h
    | _ => rfl
  | setMaxitems m =>
    simp only [CacheConc.apply, Option.some.injEq] at ha
    subst ha
    cases c with
    | maxitems => exact absurd (by simp [Move.cells]) (hc false)
    | map n => exact fun items h => h
    | _ => rfl
  | setExpire m =>
    simp only [CacheConc.apply, Option.some.injEq] at ha
    subst ha
    cases c with
    | expire => exact absurd (by simp [Move.cells]) (hc false)
    | map n => exact fun items h => h
    | _ => rfl
  | setValidator m =>
    simp only [CacheConc.apply, Option.some.injEq] at ha
    subst ha
    cases c with
    | validator => exact absurd (by simp [Move.cells]) (hc false)
    | map n => exact fun items h => h
    | _ => rfl
  | writeRtime t now =>
    simp only [CacheConc.apply] at ha
    split at ha
    · rename_i k id hid
      simp only [Option.some.injEq] at ha
      subst ha
      have hc := hc false
      simp only [Move.cells, hid] at hc
      cases c with
      | rtime j =>
        have : j ≠ id := by intro e; subst e; simp at hc
        simp only [SameContent]; rw [modify_ne this]
      | ctime j => exact modify_other (·.ctime) (by intro _; rfl) j
      | data j => exact modify_other (·.data) (by intro _; rfl) j
      | map n => exact fun items h => h
      | _ => rfl
    · cases ha
  | storePile t =>
    have hc : c ≠ .pile := by intro e; subst e; exact hc false (by simp [Move.cells])
    simp only [CacheConc.apply] at ha
    (repeat' split at ha) <;> first
      | (cases ha; done)
      | (simp only [Option.some.injEq] at ha
         subst ha
         refine sameContent_of ?_ ?_ ?_ ?_ ?_ c (Or.inr hc) (Or.inl ?_) <;> rfl)
  | _ =>
    have hc := hc true
    simp only [CacheConc.apply] at ha
    (repeat' split at ha) <;> first
      | (cases ha; done)
      | (simp only [Option.some.injEq] at ha
         subst ha
         refine sameContent_of ?_ ?_ ?_ (by rfl) ?_ c ?_ ?_
         · first | rfl | exact clean_maxitems _ _ _
         · first | rfl | exact clean_expire _ _ _
         · first | rfl | exact clean_validator _ _ _
         · first | rfl | exact clean_heap _ _ _
         · first
             | exact Or.inl rfl
             | (right; intro e; subst e; simp_all [Move.cells, delCells, mem_cleanCells]; done)
         · first
             | exact Or.inl rfl
             | (right; intro e; subst e; simp_all [Move.cells, delCells, mem_cleanCells]; done))

/-! ## The steps depend only on what they access -/

/-- What is left after the expired entries have been deleted. -/
def swept (s : Shared D) (env : Env) : AMap Nat :=
  if s.expire ≠ 0 then
    s.items.filter fun p => match s.heap[p.2]? with
      | some e => !decide (e.ctime + s.expire < env.clkAt p.1)
      | none => true
  else s.items

theorem clean_eq (s : Shared D) (env : Env) (q : Int) : clean s env q =
    if (Int.tdiv ((swept s env).length * q) 100).toNat ≤ s.pile.length then
      ({ s with items := (s.pile.take (Int.tdiv ((swept s env).length * q) 100).toNat).foldl (fun m k => AMap.del m k) (swept s env),
                pile := s.pile.drop (Int.tdiv ((swept s env).length * q) 100).toNat }, true)
    else ({ s with items := (s.pile.take (Int.tdiv ((swept s env).length * q) 100).toNat).foldl (fun m k => AMap.del m k) (swept s env),
                   locked := true }, false) := rfl

theorem clean_congr {s1 s2 : Shared D} (env : Env) (q : Int) (hi : s2.items = s1.items) (hp : s2.pile = s1.pile) (he : s2.expire = s1.expire)
    (hl : s2.locked = s1.locked) (hc : ∀ p ∈ s1.items, s2.heap[p.2]?.map (·.ctime) = s1.heap[p.2]?.map (·.ctime)) :
    (clean s2 env q).1.items = (clean s1 env q).1.items ∧ (clean s2 env q).1.pile = (clean s1 env q).1.pile ∧
      (clean s2 env q).1.locked = (clean s1 env q).1.locked ∧ (clean s2 env q).2 = (clean s1 env q).2 := by
  have hs : swept s2 env = swept s1 env := by
    unfold swept
    rw [hi, he]
    split
    · refine List.filter_congr fun p hp => ?_
      have := hc p hp
      cases h1 : s1.heap[p.2]? <;> cases h2 : s2.heap[p.2]? <;> simp_all
    · rfl
  rw [clean_eq s2, clean_eq s1, hs, hp]
  split
  · exact ⟨rfl, rfl, hl, rfl⟩
  · exact ⟨rfl, rfl, rfl, rfl⟩

theorem same_items {st st2 : St D} (h1 : SameContent st st2 .items) (h2 : SameContent st st2 (.map st.left.length)) :
    st2.sh.items = st.sh.items := by
  have h := h2 st.sh.items (by simp)
  have h1' : st.left.length = st2.left.length := h1.symm
  rw [h1'] at h
  simpa using h

theorem clean_agree {st st2 : St D} (env : Env) (q : Int) (hl : st2.sh.locked = st.sh.locked) (h : ∀ x ∈ cleanCells st, SameContent st st2 x.cell) :
    (clean st2.sh env q).1.items = (clean st.sh env q).1.items ∧ (clean st2.sh env q).1.pile = (clean st.sh env q).1.pile ∧
      (clean st2.sh env q).1.locked = (clean st.sh env q).1.locked ∧
      (clean st2.sh env q).2 = (clean st.sh env q).2 ∧ st2.left.length = st.left.length := by
  have h1 : SameContent st st2 .items := h ⟨.items, false, true⟩ (by simp [mem_cleanCells])
  have hi := same_items h1 (h ⟨.map st.left.length, true, true⟩ (by simp [mem_cleanCells]))
  have := clean_congr (s1 := st.sh) (s2 := st2.sh) env q hi (h ⟨.pile, true, true⟩ (by simp [mem_cleanCells]))
    (h ⟨.expire, false, true⟩ (by simp [mem_cleanCells])) hl
    (fun p hp => h ⟨.ctime p.2, false, true⟩ (mem_cleanCells.2 (Or.inr (Or.inr (Or.inr (Or.inr ⟨p, hp, rfl⟩))))))
  exact ⟨this.1, this.2.1, this.2.2.1, this.2.2.2, h1⟩

theorem del_agree {st st2 : St D} (k : Str) (h : ∀ x ∈ delCells st, SameContent st st2 x.cell) :
    (del st2.sh k).items = (del st.sh k).items ∧ (del st2.sh k).pile = (del st.sh k).pile ∧ st2.left.length = st.left.length := by
  have h1 : SameContent st st2 .items := h ⟨.items, false, true⟩ (by simp [delCells])
  have hi := same_items h1 (h ⟨.map st.left.length, true, true⟩ (by simp [delCells]))
  have hp : st2.sh.pile = st.sh.pile := h ⟨.pile, true, true⟩ (by simp [delCells])
  refine ⟨by simp [del, hi], by simp [del, hp], h1⟩

theorem map_same {st1 st2 : St D} {items1 items2 : AMap Nat} {n : Nat} (hl : st2.left.length = st1.left.length) (hi : items2 = items1)
    (hn : n = st1.left.length) (items : AMap Nat) (h : (st1.left ++ [items1])[n]? = some items) : (st2.left ++ [items2])[n]? = some items := by
  subst hn
  rw [hi]
  simp only [List.getElem?_concat_length] at h
  rw [← hl]
  simpa using h

theorem depends_only {st st1 st2 : St D} (a : Act D) (hab : (Move.act a).able st = true) (ha : apply st a = some st1) (hp : st2.pcs = st.pcs)
    (hl : st2.sh.locked = st.sh.locked) (hh : st2.sh.heap.length = st.sh.heap.length)
    (hsince : ∀ t m, (st.pcs t).since = some m → m ≤ st.left.length) (hv : ∀ t k ok, a = .verifyPick t k ok → st.sh.hasValidator = true)
    (hag : Agree st st2 (.act a)) : ∃ st2', apply st2 a = some st2' ∧ SameEffect st st2 st1 st2' a := by
  have mem : ∀ c w l, ⟨c, w, l⟩ ∈ (Move.act a).cells st → SameContent st st2 c := fun c w l h => hag _ h
  cases a with
  | tear p => simp [Move.able] at hab
  | set t env k d =>
    simp only [CacheConc.apply] at ha ⊢
    rw [hp, hl]
    split at ha
    · simp only [Option.some.injEq] at ha
      subst ha
      have h1 : SameContent st st2 .items := mem _ false true (by simp [Move.cells])
      have hi := same_items h1 (mem _ true true (by simp [Move.cells]))
      have hpile : st2.sh.pile = st.sh.pile := mem .pile true true (by simp [Move.cells])
      have r1 : (CacheConc.set st2.sh env k d).items = (CacheConc.set st.sh env k d).items := by simp [CacheConc.set, hi, hh]
      have r2 : (CacheConc.set st2.sh env k d).pile = (CacheConc.set st.sh env k d).pile := by simp [CacheConc.set, hi, hpile]
      have new : (CacheConc.set st2.sh env k d).heap[st.sh.heap.length]? = (CacheConc.set st.sh env k d).heap[st.sh.heap.length]? := by
        simp only [CacheConc.set]
        rw [List.getElem?_concat_length, ← hh, List.getElem?_concat_length]
      refine ⟨_, rfl, rfl, hl, ⟨_, rfl, rfl⟩, ?_⟩
      intro c l hc
      simp only [Move.cells, List.mem_cons, Access.mk.injEq, List.not_mem_nil, or_false] at hc
      rcases hc with h | ⟨rfl, _⟩ | ⟨rfl, _⟩ | ⟨rfl, _⟩ | ⟨rfl, _⟩ | ⟨rfl, _⟩
      · simp at h
      · exact map_same (n := st.left.length) (st1 := { st with sh := CacheConc.set st.sh env k d }) h1 r1 rfl
      · exact r2
      · simp only [SameContent]; rw [new]
      · simp only [SameContent]; rw [new]
      · simp only [SameContent]; rw [new]
    · cases ha
  | setFull t env =>
    simp only [CacheConc.apply] at ha ⊢
    rw [hp, hl]
    split at ha
    · split at ha
      · rename_i hfull
        simp only [Option.some.injEq] at ha
        subst ha
        have hm : st2.sh.maxitems = st.sh.maxitems := mem .maxitems false false (by simp [Move.cells, mem_sizeCells])
        have h1 : SameContent st st2 .items := mem .items false true (by simp [Move.cells, mem_cleanCells])
        have hi := same_items h1 (mem _ true true (by simp [Move.cells, mem_cleanCells]))
        obtain ⟨k1, k2, k5, k4, k3⟩ := clean_agree (st := st) (st2 := st2) env 10 hl (fun x hx => hag x (by
          simp only [Move.cells, List.mem_append]; exact Or.inr hx))
        have hfull2 : 0 < st2.sh.maxitems ∧ st2.sh.maxitems ≤ st2.sh.items.length := by rw [hm, hi]; exact hfull
        rw [if_pos hfull2]
        refine ⟨_, rfl, rfl, k5, ⟨_, rfl, by rw [k4]⟩, fun c l hc => ?_⟩
        simp only [Move.cells, List.mem_append, mem_sizeCells, mem_cleanCells, Access.mk.injEq, Bool.true_eq_false, false_and, and_false,
          false_or, exists_false, or_false, true_and] at hc
        rcases hc with ⟨rfl, _⟩ | ⟨rfl, _⟩
        · exact map_same (st1 := { st with sh := (clean st.sh env 10).1 }) k3 k1 rfl
        · exact k2
      · cases ha
    · cases ha
  | setOk t =>
    simp only [CacheConc.apply] at ha ⊢
    rw [hp]
    split at ha
    · split at ha
      · cases ha
      · rename_i hfull
        simp only [Option.some.injEq] at ha
        subst ha
        have hm : st2.sh.maxitems = st.sh.maxitems := mem .maxitems false false (by simp [Move.cells, mem_sizeCells])
        have hfull2 : ¬ (0 < st2.sh.maxitems ∧ st2.sh.maxitems ≤ st2.sh.items.length) := by
          rw [hm]
          by_cases h0 : 0 < st.sh.maxitems
          · have h1 : SameContent st st2 .items := mem .items false false (by simp [Move.cells, mem_sizeCells, h0])
            rw [same_items h1 (mem _ false false (by simp [Move.cells, mem_sizeCells, h0]))]
            exact hfull
          · exact fun h => h0 h.1
        rw [if_neg hfull2]
        refine ⟨_, rfl, rfl, hl, ⟨[], by simp, by simp⟩, fun c l hc => ?_⟩
        simp [Move.cells, mem_sizeCells] at hc
    · cases ha
  | flush =>
    simp only [CacheConc.apply] at ha ⊢
    rw [hl]
    split at ha
    · cases ha
    rename_i hu
    simp only [Option.some.injEq] at ha
    subst ha
    have h1 : st2.left.length = st.left.length := mem .items true true (by simp [Move.cells])
    rw [if_neg hu]
    refine ⟨_, rfl, hp, rfl, ⟨[], by simp, by simp⟩, fun c l hc => ?_⟩
    simp only [Move.cells, List.mem_cons, Access.mk.injEq, List.not_mem_nil, or_false, true_and] at hc
    obtain ⟨rfl, _⟩ := hc
    simp [SameContent, h1]
  | setMaxitems m =>
    simp only [CacheConc.apply, Option.some.injEq] at ha ⊢
    subst ha
    exact ⟨_, rfl, hp, hl, ⟨[], by simp, by simp⟩, fun c l hc => by simp [Move.cells] at hc; obtain ⟨rfl, _⟩ := hc; rfl⟩
  | setExpire m =>
    simp only [CacheConc.apply, Option.some.injEq] at ha ⊢
    subst ha
    exact ⟨_, rfl, hp, hl, ⟨[], by simp, by simp⟩, fun c l hc => by simp [Move.cells] at hc; obtain ⟨rfl, _⟩ := hc; rfl⟩
  | setValidator m =>
    simp only [CacheConc.apply, Option.some.injEq] at ha ⊢
    subst ha
    exact ⟨_, rfl, hp, hl, ⟨[], by simp, by simp⟩, fun c l hc => by simp [Move.cells] at hc; obtain ⟨rfl, _⟩ := hc; rfl⟩
  | del k =>
    simp only [CacheConc.apply] at ha ⊢
    rw [hl]
    split at ha
    · cases ha
    rename_i hu
    simp only [Option.some.injEq] at ha
    subst ha
    obtain ⟨k1, k2, k3⟩ := del_agree k hag
    rw [if_neg hu]
    refine ⟨_, rfl, hp, hl, ⟨[], by simp, by simp⟩, fun c l hc => ?_⟩
    simp only [Move.cells, delCells, List.mem_cons, Access.mk.injEq, List.not_mem_nil, or_false, and_false, false_or, true_and, false_and,
      Bool.true_eq_false] at hc
    rcases hc with ⟨rfl, _⟩ | ⟨rfl, _⟩
    · exact map_same (st1 := { st with sh := del st.sh k }) k3 k1 rfl
    · exact k2
  | clean env q =>
    simp only [CacheConc.apply] at ha ⊢
    rw [hl]
    split at ha
    · cases ha
    rename_i hu
    simp only [Option.some.injEq] at ha
    subst ha
    obtain ⟨k1, k2, k5, k4, k3⟩ := clean_agree env q hl hag
    rw [if_neg hu]
    refine ⟨_, rfl, hp, k5, ⟨_, rfl, by rw [k4]⟩, fun c l hc => ?_⟩
    simp only [Move.cells, mem_cleanCells, Access.mk.injEq, Bool.true_eq_false, false_and, and_false,
      false_or, exists_false, or_false, true_and] at hc
    rcases hc with ⟨rfl, _⟩ | ⟨rfl, _⟩
    · exact map_same (st1 := { st with sh := (clean st.sh env q).1 }) k3 k1 rfl
    · exact k2
  | getStart t k =>
    have h1 : SameContent st st2 .items := mem .items false true (by simp [Move.cells])
    have hi := same_items h1 (mem _ false true (by simp [Move.cells]))
    simp only [CacheConc.apply] at ha ⊢
    rw [hi, hp, hl]
    split at ha
    · split at ha
      · simp only [Option.some.injEq] at ha
        subst ha
        exact ⟨_, rfl, rfl, hl, ⟨[], by simp, by simp⟩, fun c l hc => by simp [Move.cells] at hc⟩
      · simp only [Option.some.injEq] at ha
        subst ha
        exact ⟨_, rfl, rfl, hl, ⟨_, rfl, rfl⟩, fun c l hc => by simp [Move.cells] at hc⟩
    · cases ha
  | checkVal t ok =>
    simp only [CacheConc.apply] at ha ⊢
    rw [hp]
    split at ha
    · rename_i k id hq
      have c1 : st2.sh.hasValidator = st.sh.hasValidator := mem .validator false false (by simp [Move.cells, hq])
      rw [c1]
      split at ha <;> (simp only [Option.some.injEq] at ha; subst ha)
      · rename_i hcond
        rw [if_pos hcond]
        exact ⟨_, rfl, rfl, hl, ⟨[], by simp, by simp⟩, fun c l hc => by simp [Move.cells, hq] at hc⟩
      · rename_i hcond
        rw [if_neg hcond]
        exact ⟨_, rfl, rfl, hl, ⟨[], by simp, by simp⟩, fun c l hc => by simp [Move.cells, hq] at hc⟩
    · cases ha
  | checkExp t now =>
    simp only [CacheConc.apply] at ha ⊢
    rw [hp]
    split at ha
    · rename_i k id hq
      have c1 : st2.sh.expire = st.sh.expire := mem .expire false false (by simp [Move.cells, hq])
      have c2 : SameContent st st2 (.ctime id) := mem (.ctime id) false false (by simp [Move.cells, hq])
      simp only [SameContent] at c2
      split at ha
      · rename_i e he
        rw [he] at c2
        cases q2 : st2.sh.heap[id]? with
        | none => rw [q2] at c2; cases c2
        | some e2 =>
          rw [q2] at c2
          simp only [Option.map_some, Option.some.injEq] at c2
          dsimp only
          rw [c1, c2]
          split at ha <;> (simp only [Option.some.injEq] at ha; subst ha)
          · rename_i hcond
            rw [if_pos hcond]
            exact ⟨_, rfl, rfl, hl, ⟨[], by simp, by simp⟩, fun c l hc => by simp [Move.cells, hq] at hc⟩
          · rename_i hcond
            rw [if_neg hcond]
            exact ⟨_, rfl, rfl, hl, ⟨[], by simp, by simp⟩, fun c l hc => by simp [Move.cells, hq] at hc⟩
      · cases ha
    · cases ha
  | writeRtime t now =>
    simp only [CacheConc.apply] at ha ⊢
    rw [hp]
    split at ha
    · rename_i k id hq
      simp only [Option.some.injEq] at ha
      subst ha
      refine ⟨_, rfl, rfl, hl, ⟨[], by simp, by simp⟩, fun c l hc => ?_⟩
      simp only [Move.cells, hq, List.mem_cons, Access.mk.injEq, List.not_mem_nil, or_false, true_and] at hc
      obtain ⟨rfl, _⟩ := hc
      have hc : SameContent st st2 (.rtime id) := mem (.rtime id) true false (by simp [Move.cells, hq])
      simp only [SameContent] at hc ⊢
      simp only [List.getElem?_modify]
      cases q1 : st.sh.heap[id]? <;> cases q2 : st2.sh.heap[id]? <;> simp_all
    · cases ha
  | loadPile t =>
    have c1 : st2.sh.pile = st.sh.pile := mem .pile false false (by simp [Move.cells])
    simp only [CacheConc.apply] at ha ⊢
    rw [hp, c1]
    split at ha
    · simp only [Option.some.injEq] at ha
      subst ha
      exact ⟨_, rfl, rfl, hl, ⟨[], by simp, by simp⟩, fun c l hc => by simp [Move.cells] at hc⟩
    · simp only [Option.some.injEq] at ha
      subst ha
      exact ⟨_, rfl, rfl, hl, ⟨[], by simp, by simp⟩, fun c l hc => by simp [Move.cells] at hc⟩
    · cases ha
  | storePile t =>
    have only : ∀ c l, ⟨c, true, l⟩ ∈ (Move.act (.storePile t : Act D)).cells st → c = .pile := by
      intro c l hc
      simp only [Move.cells] at hc
      split at hc <;> simp_all
    simp only [CacheConc.apply] at ha ⊢
    rw [hp]
    split at ha
    · simp only [Option.some.injEq] at ha
      subst ha
      refine ⟨_, rfl, rfl, hl, ⟨[], by simp, by simp⟩, fun c l hc => ?_⟩
      rw [only c l hc]; rfl
    · rename_i k id pile hq
      have c2 : SameContent st st2 (.data id) := mem (.data id) false false (by simp [Move.cells, hq])
      simp only [SameContent] at c2
      split at ha
      · rename_i e he
        rw [he] at c2
        cases q2 : st2.sh.heap[id]? with
        | none => rw [q2] at c2; cases c2
        | some e2 =>
          rw [q2] at c2
          simp only [Option.map_some, Option.some.injEq] at c2
          simp only [Option.some.injEq] at ha
          subst ha
          dsimp only
          rw [c2]
          refine ⟨_, rfl, rfl, hl, ⟨_, rfl, rfl⟩, fun c l hc => ?_⟩
          rw [only c l hc]; rfl
      · cases ha
    · cases ha
  | getDrop t =>
    simp only [CacheConc.apply] at ha ⊢
    rw [hp, hl]
    split at ha
    · rename_i k id _ hq
      simp only [Option.some.injEq] at ha
      subst ha
      obtain ⟨k1, k2, k3⟩ := del_agree k hag
      refine ⟨_, rfl, rfl, hl, ⟨_, rfl, rfl⟩, fun c l hc => ?_⟩
      simp only [Move.cells, delCells, List.mem_cons, Access.mk.injEq, List.not_mem_nil, or_false, and_false, false_or, true_and, false_and,
        Bool.true_eq_false] at hc
      rcases hc with ⟨rfl, _⟩ | ⟨rfl, _⟩
      · exact map_same (st1 := { st with sh := del st.sh k }) k3 k1 rfl
      · exact k2
    · cases ha
  | verifyStart t env =>
    simp only [CacheConc.apply] at ha ⊢
    rw [hp, hl]
    split at ha
    · simp only [Option.some.injEq] at ha
      subst ha
      obtain ⟨k1, k2, k5, k4, k3⟩ := clean_agree env 0 hl hag
      refine ⟨_, rfl, by rw [k3], k5, ⟨_, rfl, by rw [k4]⟩, fun c l hc => ?_⟩
      simp only [Move.cells, mem_cleanCells, Access.mk.injEq, Bool.true_eq_false, false_and, and_false,
        false_or, exists_false, or_false, true_and] at hc
      rcases hc with ⟨rfl, _⟩ | ⟨rfl, _⟩
      · exact map_same (st1 := { st with sh := (clean st.sh env 0).1 }) k3 k1 rfl
      · exact k2
    · cases ha
  | verifyPick t k ok =>
    have hv' := hv t k ok rfl
    simp only [CacheConc.apply] at ha ⊢
    rw [hp]
    split at ha
    · rename_i m hq hr
      have c1 : st2.sh.hasValidator = st.sh.hasValidator := mem .validator false false (by simp [Move.cells, hq, hv'])
      have c2 : st2.left.length = st.left.length := mem .items false false (by simp [Move.cells, hq, hv'])
      rw [hq] at hr
      have hm : ∃ j items, m ≤ j ∧ (maps st)[j]? = some items ∧ (AMap.get items k).isSome = true := by
        simp only [ranged, Bool.or_eq_true, List.any_eq_true] at hr
        rcases hr with hr | ⟨items, h1, h2⟩
        · exact ⟨st.left.length, st.sh.items, hsince t m (by rw [hq]; rfl), by simp [maps], hr⟩
        · obtain ⟨i, hi⟩ := List.mem_iff_getElem?.1 h1
          rw [List.getElem?_drop] at hi
          refine ⟨m + i, items, Nat.le_add_right _ _, ?_, h2⟩
          have : m + i < st.left.length := (List.getElem?_eq_some_iff.1 hi).1
          rw [maps, List.getElem?_append_left this]; exact hi
      obtain ⟨j, items, hj, h1, h2⟩ := hm
      obtain ⟨id, hid⟩ := Option.isSome_iff_exists.1 h2
      have c3 : SameContent st st2 (.map j) := mem (.map j) false false (by
        simp only [Move.cells, hq, hv', if_true, List.mem_append, mem_pickCells]
        exact Or.inr ⟨j, items, id, hj, h1, hid, Or.inl rfl⟩)
      have h3 : (st2.left ++ [st2.sh.items])[j]? = some items := c3 items h1
      have hr2 : ranged st2 (.verifying m) k = true := by
        simp only [ranged, Bool.or_eq_true, List.any_eq_true]
        rcases Nat.lt_or_ge j st2.left.length with hlt | hge
        · rw [List.getElem?_append_left hlt] at h3
          refine Or.inr ⟨items, List.mem_iff_getElem?.2 ⟨j - m, ?_⟩, h2⟩
          rw [List.getElem?_drop, Nat.add_sub_cancel' hj]; exact h3
        · have : j = st2.left.length := by
            have := (List.getElem?_eq_some_iff.1 h3).1
            simp at this; omega
          subst this
          simp only [List.getElem?_concat_length, Option.some.injEq] at h3
          rw [h3]; exact Or.inl h2
      have nothing : ∀ c l, ⟨c, true, l⟩ ∉ (Move.act (Act.verifyPick t k ok : Act D)).cells st := by
        intro c l hc
        simp [Move.cells, hq, hv', mem_pickCells] at hc
      rw [hq, hr2, c1]
      dsimp only
      split at ha <;> (simp only [Option.some.injEq] at ha; subst ha)
      · rename_i hcond
        rw [if_pos hcond]
        exact ⟨_, rfl, rfl, hl, ⟨[], by simp, by simp⟩, fun c l hc => absurd hc (nothing c l)⟩
      · rename_i hcond
        rw [if_neg hcond]
        exact ⟨_, rfl, hp, hl, ⟨[], by simp, by simp⟩, fun c l hc => absurd hc (nothing c l)⟩
    · cases ha
  | verifyDel t =>
    simp only [CacheConc.apply] at ha ⊢
    rw [hp, hl]
    split at ha
    · rename_i k m _ hq
      simp only [Option.some.injEq] at ha
      subst ha
      have h1 : SameContent st st2 .items := mem .items false true (by simp [Move.cells])
      have hi := same_items h1 (mem _ true true (by simp [Move.cells]))
      refine ⟨_, rfl, rfl, rfl, ⟨[], by simp, by simp⟩, fun c l hc => ?_⟩
      simp only [Move.cells, List.mem_cons, Access.mk.injEq, List.not_mem_nil, or_false, and_false, false_or, true_and, false_and,
        Bool.true_eq_false] at hc
      obtain ⟨rfl, _⟩ := hc
      exact map_same (st1 := { st with sh := { st.sh with items := st.sh.items.del k } }) h1 (by rw [hi]) rfl
    · cases ha
  | verifyEnd t =>
    simp only [CacheConc.apply] at ha ⊢
    rw [hp]
    split at ha
    · rename_i m hq
      simp only [Option.some.injEq] at ha
      subst ha
      refine ⟨_, rfl, rfl, hl, ⟨[], by simp, by simp⟩, fun c l hc => ?_⟩
      simp only [Move.cells, hq] at hc
      split at hc <;> simp at hc
    · cases ha

/-! ## Considerate programs -/

/-- The goroutine is in a Get that found an entry or, when there is a limit, in the second half of a Set. -/
def Busy (m : Int) (p : PC) : Prop := InGet p ∨ (0 < m ∧ p = .setDone)

/-- What considerate programs keep: the fields as at the start, never two busy goroutines, no Verify with a validator. -/
structure Settled (m e : Int) (b : Bool) (st : St D) : Prop where
  maxitems : st.sh.maxitems = m
  expire : st.sh.expire = e
  validator : st.sh.hasValidator = b
  one : ∀ t t', Busy m (st.pcs t) → Busy m (st.pcs t') → t = t'
  verify : ∀ t n, (st.pcs t).since = some n → b = false
  doomed : ∀ t k n, st.pcs t ≠ .vdoomed k n

theorem Settled.alone {m e : Int} {b : Bool} {st : St D} (h : Settled m e b st) (ha : Alone st) (t : Nat) : ¬ Busy m (st.pcs t) := by
  rintro (h1 | ⟨h1, h2⟩)
  · exact (ha t).1 h1
  · exact (ha t).2 (by rw [h.maxitems]; exact h1) h2

theorem Settled.mono {m e : Int} {b : Bool} {st st' : St D} (h : Settled m e b st) (hm : st'.sh.maxitems = st.sh.maxitems)
    (he : st'.sh.expire = st.sh.expire) (hv : st'.sh.hasValidator = st.sh.hasValidator)
    (hp : ∀ t, Busy m (st'.pcs t) → Busy m (st.pcs t)) (hs : ∀ t n, (st'.pcs t).since = some n → (st.pcs t).since = some n ∨ b = false)
    (hd : ∀ t k n, st'.pcs t ≠ .vdoomed k n) :
    Settled m e b st' :=
  ⟨hm.trans h.maxitems, he.trans h.expire, hv.trans h.validator, fun t t' h1 h2 => h.one t t' (hp t h1) (hp t' h2), fun t n hg => by
    rcases hs t n hg with h1 | h1
    · exact h.verify t n h1
    · exact h1, hd⟩

/-- A goroutine becomes busy while no other one is. -/
theorem Settled.enter {m e : Int} {b : Bool} {st st' : St D} (h : Settled m e b st) {t : Nat} {p : PC} (hm : st'.sh.maxitems = st.sh.maxitems)
    (he : st'.sh.expire = st.sh.expire) (hv : st'.sh.hasValidator = st.sh.hasValidator) (hpcs : st'.pcs = upd st.pcs t p) (hs : p.since = none)
    (ha : Alone st) : Settled m e b st' := by
  refine ⟨hm.trans h.maxitems, he.trans h.expire, hv.trans h.validator, ?_, ?_, ?_⟩
  · intro t1 t2 h1 h2
    rw [hpcs] at h1 h2
    simp only [upd] at h1 h2
    split at h1
    · rename_i e1; split at h2
      · rename_i e2; rw [e1, e2]
      · exact absurd h2 (h.alone ha t2)
    · exact absurd h1 (h.alone ha t1)
  · intro t' n hg
    rw [hpcs] at hg
    simp only [upd] at hg
    split at hg
    · rw [hs] at hg; cases hg
    · exact h.verify t' n hg
  · intro t' k n hg
    rw [hpcs] at hg
    simp only [upd] at hg
    split at hg
    · subst hg; cases hs
    · exact h.doomed t' k n hg

theorem Settled.step {m e : Int} {b : Bool} {st st' : St D} (h : Settled m e b st) (a : Act D) (hc : Considerate st (.act a))
    (ha : apply st a = some st') : Settled m e b st' := by
  cases a with
  | setMaxitems m => cases hc
  | setExpire m => cases hc
  | setValidator m => cases hc
  | tear m => cases hc
  | getStart t k =>
    simp only [Considerate] at hc
    simp only [CacheConc.apply] at ha
    (repeat' split at ha)
    · rename_i id hid
      simp only [Option.some.injEq] at ha
      subst ha
      exact h.enter rfl rfl rfl rfl rfl (hc (by rw [hid]; rfl))
    · simp only [Option.some.injEq] at ha
      subst ha; exact ⟨h.maxitems, h.expire, h.validator, h.one, h.verify, h.doomed⟩
    · cases ha
  | set t env k d =>
    simp only [CacheConc.apply] at ha
    split at ha
    · simp only [Option.some.injEq] at ha
      subst ha
      exact h.enter rfl rfl rfl rfl rfl hc
    · cases ha
  | verifyPick t k ok =>
    simp only [CacheConc.apply] at ha
    split at ha
    · rename_i n hq _
      have hb := h.verify t n (by rw [hq]; rfl)
      have hv := h.validator
      rw [hb] at hv
      simp only [hv, Bool.false_and, Bool.false_eq_true, if_false, Option.some.injEq] at ha
      subst ha; exact h
    · cases ha
  | _ =>
    simp only [CacheConc.apply] at ha
    (repeat' split at ha) <;> first
      | (cases ha; done)
      | (simp only [Option.some.injEq] at ha
         subst ha
         refine h.mono ?_ ?_ ?_ ?_ ?_ ?_
         · first | rfl | exact clean_maxitems _ _ _
         · first | rfl | exact clean_expire _ _ _
         · first | rfl | exact clean_validator _ _ _
         · first
             | exact fun t h => h
             | (intro t' hg
                simp only [upd] at hg
                split at hg
                · simp_all [Busy, InGet]; done
                · exact hg)
         · first
             | exact fun t k h => Or.inl h
             | (intro t' m' hg
                simp only [upd] at hg
                split at hg
                · have := h.validator; simp_all [PC.since, Considerate]; done
                · exact Or.inl hg)
         · first
             | exact h.doomed
             | (intro t' k' m' hg
                simp only [upd] at hg
                split at hg
                · simp_all; done
                · exact h.doomed t' k' m' hg))

theorem considerate_inv {m e : Int} {v : Bool} {st : St D} (h : ConsiderateRun m e v st) : Settled m e v st ∧ Inv st ∧ ∃ f, Owned f st := by
  induction h with
  | start =>
    have hr : runActs (init m e : St D) [.setValidator v] = some (start m e v) := rfl
    refine ⟨⟨rfl, rfl, rfl, ?_, ?_, ?_⟩, (Inv.init m e).run _ hr, owned_run (owned_init m e) (Inv.init m e) _ hr⟩
    · rintro t t' (h | ⟨_, h⟩) <;> cases h
    · intro t m h; cases h
    · intro t k n h; cases h
  | step _ hc ha ih =>
    obtain ⟨h1, h2, f, h3⟩ := ih
    exact ⟨h1.step _ hc ha, h2.step _ ha, h3.step h2 _ ha⟩

theorem WritesMap.who {m e : Int} {v : Bool} {st : St D} (h : Settled m e v st) {a : Move D} (hw : WritesMap a) (hab : a.able st = true)
    (hc : Considerate st a) : Alone st ∨ ∃ t, a.owner = some t ∧ Busy m (st.pcs t) := by
  cases a with
  | count => cases hw
  | act x =>
    cases x <;> first
      | exact False.elim hw
      | exact Or.inl hc
      | exact Or.inl hc.1
      | (simp only [Move.able, CacheConc.apply] at hab
         (repeat' split at hab) <;> first
           | (cases hab; done)
           | (refine Or.inr ⟨_, rfl, ?_⟩
              have := h.maxitems
              simp_all [Busy, InGet]; done)
           | (exfalso; exact h.doomed _ _ _ (by assumption)))

theorem WritesPile.who {m e : Int} {v : Bool} {st : St D} (h : Settled m e v st) {a : Move D} (hw : WritesPile a) (hab : a.able st = true)
    (hc : Considerate st a) : Alone st ∨ ∃ t, a.owner = some t ∧ Busy m (st.pcs t) := by
  cases a with
  | count => cases hw
  | act x =>
    cases x <;> first
      | exact False.elim hw
      | exact Or.inl hc
      | exact Or.inl hc.1
      | (simp only [Move.able, CacheConc.apply] at hab
         (repeat' split at hab) <;> first
           | (cases hab; done)
           | (refine Or.inr ⟨_, rfl, ?_⟩
              have := h.maxitems
              simp_all [Busy, InGet]; done))

theorem MovesKey.who {m : Int} {st : St D} {a : Move D} (hw : MovesKey a) (hab : a.able st = true) :
    ∃ t, a.owner = some t ∧ Busy m (st.pcs t) := by
  cases a with
  | count => cases hw
  | act x =>
    cases x <;> first
      | exact False.elim hw
      | (simp only [Move.able, CacheConc.apply] at hab
         (repeat' split at hab) <;> first
           | (cases hab; done)
           | (refine ⟨_, rfl, ?_⟩
              simp_all [Busy, InGet]; done))

theorem Peeks.who {m e : Int} {v here : Bool} {st : St D} (h : Settled m e v st) {a : Move D} (hw : Peeks st here a) (hab : a.able st = true) :
    ∃ t, a.owner = some t ∧ Busy m (st.pcs t) := by
  have verify : ∀ t n, st.pcs t = .verifying n → st.sh.hasValidator = true → False := by
    intro t n hq hv
    have h1 := h.verify t n (by rw [hq]; rfl)
    have h2 := h.validator
    rw [h1, hv] at h2; cases h2
  cases a with
  | count => cases hw
  | act x =>
    cases x <;> first
      | exact False.elim hw
      | (simp only [Move.able, CacheConc.apply] at hab
         simp only [Peeks] at hw
         (repeat' split at hab) <;> first
           | (cases hab; done)
           | (exact (verify _ _ (by assumption) hw).elim)
           | (exact (verify _ _ (by assumption) hw.1).elim)
           | (refine ⟨_, rfl, ?_⟩
              have := h.maxitems
              simp_all [Busy, InGet]; done))

/-- Considerate steps do not clash. -/
theorem Settled.no_clash {m e : Int} {v : Bool} {st : St D} (h : Settled m e v st) {a b : Move D} (hab : Concurrent st a b)
    (ha : Considerate st a) : ¬ Clash st a b := by
  have apart : (Alone st ∨ ∃ t, a.owner = some t ∧ Busy m (st.pcs t)) → (∃ t, b.owner = some t ∧ Busy m (st.pcs t)) → False := by
    rintro (h1 | ⟨t, h1, h2⟩) ⟨t', h3, h4⟩
    · exact h.alone h1 t' h4
    · have := h.one t t' h2 h4
      subst this
      exact hab.2.2 t h1 h3
  intro hc
  cases hc with
  | pile h1 h2 => exact apart (h1.who h hab.1 ha) (h2.who hab.2.1)
  | @rtime t t' now now' k id h1 h2 =>
    exact apart (Or.inr ⟨t, rfl, by rw [h1]; exact Or.inl trivial⟩) ⟨t', rfl, by rw [h2]; exact Or.inl trivial⟩
  | map h1 h2 => exact apart (h1.who h hab.1 ha) (h2.who h hab.2.1)
  | flush h2 => exact apart (Or.inl ha) (h2.who h hab.2.1)
  | field g h1 h2 =>
    cases a with
    | count => cases g <;> cases h1
    | act x => cases g <;> cases x <;> first | exact False.elim h1 | exact False.elim ha

/-! ## The pile of a considerate program -/

/-- What considerate programs keep about the pile. -/
structure Piled (st : St D) : Prop where
  removing : ∀ t k id p, st.pcs t = .removing k id p → p = st.sh.pile
  adding : ∀ t k id p, st.pcs t = .adding k id p → p = st.sh.pile
  sub : ∀ k id, st.sh.items.get k = some id → k ∈ st.sh.pile ∨ ∃ t id', st.pcs t = .removed k id' ∨ ∃ p, st.pcs t = .adding k id' p
  panics : ∀ p, Obs.panicked p ∈ st.obs → 100 < p
  locked : st.sh.locked = true → ∃ p, Obs.panicked p ∈ st.obs

theorem outside_of {st : St D} (ha : ∀ t, (st.pcs t).Outside) (h : Piled st) (hn : st.sh.items.Nodup) : Kept st := by
  refine ⟨hn, ?_, ha, h.panics⟩
  intro k id hg
  rcases h.sub k id hg with h1 | ⟨t, id', h1 | ⟨p, h1⟩⟩
  · exact h1
  · have := ha t; rw [h1] at this; exact this.elim
  · have := ha t; rw [h1] at this; exact this.elim

theorem Piled.of_kept {st : St D} (h : Kept st) (hl : st.sh.locked = true → ∃ p, Obs.panicked p ∈ st.obs) : Piled st := by
  refine ⟨?_, ?_, fun k id hg => Or.inl (h.sub k id hg), h.panics, hl⟩
  · intro t k id p hq; have := h.outside t; rw [hq] at this; exact this.elim
  · intro t k id p hq; have := h.outside t; rw [hq] at this; exact this.elim

theorem clean_locked {s : Shared D} {env : Env} {p : Int} (h : (clean s env p).1.locked = true) : s.locked = true ∨ (clean s env p).2 = false := by
  rw [clean_eq] at h ⊢
  split at h
  · exact Or.inl h
  · rename_i hc
    rw [if_neg hc]; exact Or.inr rfl

theorem locked_panicked {st st' : St D} (h : st.sh.locked = true → ∃ p, Obs.panicked p ∈ st.obs) (a : Act D) (ha : apply st a = some st') :
    st'.sh.locked = true → ∃ p, Obs.panicked p ∈ st'.obs := by
  have ap : ∀ new : List (Obs D), st.sh.locked = true → ∃ q, Obs.panicked q ∈ st.obs ++ new := by
    intro new hl
    obtain ⟨q, hq⟩ := h hl; exact ⟨q, List.mem_append_left _ hq⟩
  cases a <;> simp only [CacheConc.apply] at ha <;> (repeat' split at ha) <;> first
    | (cases ha; done)
    | (simp only [Option.some.injEq] at ha
       subst ha
       first
         | exact h
         | exact ap _
         | (intro hl
            rcases clean_locked hl with h1 | h1
            · exact ap _ h1
            · first
                | exact ⟨_, List.mem_append_right _ (List.mem_singleton.2 rfl)⟩
                | (simp_all; done)))

/-- Only the place of a goroutine that does not touch the pile changes. -/
theorem Piled.leave {st st' : St D} (h : Piled st) {t : Nat} (hp : (st.pcs t).Outside) (hpile : st'.sh.pile = st.sh.pile)
    (hitems : st'.sh.items = st.sh.items) (hobs : st'.obs = st.obs) (hl : st'.sh.locked = st.sh.locked) (hpcs : st'.pcs = upd st.pcs t .idle) :
    Piled st' := by
  have back : ∀ t' p, st'.pcs t' = p → p ≠ .idle → st.pcs t' = p := by
    intro t' p hq hne
    rw [hpcs] at hq
    simp only [upd] at hq
    split at hq
    · exact absurd hq.symm hne
    · exact hq
  have fwd : ∀ t' p, st.pcs t' = p → ¬ p.Outside → st'.pcs t' = p := by
    intro t' p hq hne
    rw [hpcs]
    simp only [upd]
    split
    · rename_i e; subst e; rw [hq] at hp; exact absurd hp hne
    · exact hq
  refine ⟨?_, ?_, ?_, by rw [hobs]; exact h.panics, by rw [hl, hobs]; exact h.locked⟩
  · intro t' k id p hq; rw [hpile]; exact h.removing t' k id p (back t' _ hq (by simp))
  · intro t' k id p hq; rw [hpile]; exact h.adding t' k id p (back t' _ hq (by simp))
  · intro k id hg
    rw [hitems] at hg
    rw [hpile]
    rcases h.sub k id hg with h1 | ⟨t', id', h1 | ⟨p, h1⟩⟩
    · exact Or.inl h1
    · exact Or.inr ⟨t', id', Or.inl (fwd t' _ h1 (by simp [PC.Outside]))⟩
    · exact Or.inr ⟨t', id', Or.inr ⟨p, fwd t' _ h1 (by simp [PC.Outside])⟩⟩

theorem Piled.load {st st' : St D} (h : Piled st) (t : Nat) (ha : apply st (.loadPile t) = some st') : Piled st' := by
  simp only [CacheConc.apply] at ha
  split at ha
  · rename_i k id hq
    simp only [Option.some.injEq] at ha
    subst ha
    refine ⟨?_, ?_, ?_, h.panics, h.locked⟩
    · intro t' k' id' p hq'
      simp only [upd] at hq'
      split at hq'
      · simp only [PC.removing.injEq] at hq'; exact hq'.2.2.symm
      · exact h.removing t' k' id' p hq'
    · intro t' k' id' p hq'
      simp only [upd] at hq'
      split at hq'
      · cases hq'
      · exact h.adding t' k' id' p hq'
    · intro k' id' hg
      rcases h.sub k' id' hg with h1 | ⟨t', i, h1⟩
      · exact Or.inl h1
      · refine Or.inr ⟨t', i, ?_⟩
        have : t' ≠ t := by rintro rfl; rw [hq] at h1; simp at h1
        simpa only [upd, this, if_false] using h1
  · rename_i k id hq
    simp only [Option.some.injEq] at ha
    subst ha
    refine ⟨?_, ?_, ?_, h.panics, h.locked⟩
    · intro t' k' id' p hq'
      simp only [upd] at hq'
      split at hq'
      · cases hq'
      · exact h.removing t' k' id' p hq'
    · intro t' k' id' p hq'
      simp only [upd] at hq'
      split at hq'
      · simp only [PC.adding.injEq] at hq'; exact hq'.2.2.symm
      · exact h.adding t' k' id' p hq'
    · intro k' id' hg
      rcases h.sub k' id' hg with h1 | ⟨t', i, h1⟩
      · exact Or.inl h1
      · by_cases e : t' = t
        · subst e
          rw [hq] at h1
          simp only [PC.removed.injEq, reduceCtorEq, exists_false, or_false] at h1
          obtain ⟨rfl, rfl⟩ := h1
          exact Or.inr ⟨t', id, Or.inr ⟨st.sh.pile, by simp [upd]⟩⟩
        · refine Or.inr ⟨t', i, ?_⟩
          simpa only [upd, e, if_false] using h1
  · cases ha

theorem Piled.store {m e : Int} {v : Bool} {st st' : St D} (h : Piled st) (hs : Settled m e v st) (t : Nat)
    (ha : apply st (.storePile t) = some st') : Piled st' := by
  have only : ∀ t' , InGet (st.pcs t) → InGet (st.pcs t') → t' = t := fun t' h1 h2 => hs.one t' t (Or.inl h2) (Or.inl h1)
  simp only [CacheConc.apply] at ha
  split at ha
  · rename_i k id pile hq
    have hb : InGet (st.pcs t) := by rw [hq]; trivial
    have hpile := h.removing t k id pile hq
    subst hpile
    simp only [Option.some.injEq] at ha
    subst ha
    refine ⟨?_, ?_, ?_, h.panics, h.locked⟩
    · intro t' k' id' p hq'
      simp only [upd] at hq'
      split at hq'
      · cases hq'
      · rename_i hne; exact absurd (only t' hb (by rw [hq']; trivial)) hne
    · intro t' k' id' p hq'
      simp only [upd] at hq'
      split at hq'
      · cases hq'
      · rename_i hne; exact absurd (only t' hb (by rw [hq']; trivial)) hne
    · intro k' id' hg
      by_cases hk : k' = k
      · subst hk
        exact Or.inr ⟨t, id, Or.inl (by simp [upd])⟩
      · rcases h.sub k' id' hg with h1 | ⟨t', i, h1⟩
        · exact Or.inl (mem_remove h1 hk)
        · have e : t' = t := only t' hb (by rcases h1 with h1 | ⟨p, h1⟩ <;> (rw [h1]; trivial))
          subst e
          rw [hq] at h1; simp at h1
  · rename_i k id pile hq
    have hb : InGet (st.pcs t) := by rw [hq]; trivial
    have hpile := h.adding t k id pile hq
    subst hpile
    split at ha
    · simp only [Option.some.injEq] at ha
      subst ha
      refine ⟨?_, ?_, ?_, panics_append' h.panics (by simp), fun hl => ?_⟩
      · intro t' k' id' p hq'
        simp only [upd] at hq'
        split at hq'
        · cases hq'
        · rename_i hne; exact absurd (only t' hb (by rw [hq']; trivial)) hne
      · intro t' k' id' p hq'
        simp only [upd] at hq'
        split at hq'
        · cases hq'
        · rename_i hne; exact absurd (only t' hb (by rw [hq']; trivial)) hne
      · intro k' id' hg
        rcases h.sub k' id' hg with h1 | ⟨t', i, h1⟩
        · exact Or.inl (List.mem_append_left _ h1)
        · have e : t' = t := only t' hb (by rcases h1 with h1 | ⟨p, h1⟩ <;> (rw [h1]; trivial))
          subst e
          rw [hq] at h1
          simp only [reduceCtorEq, PC.adding.injEq, false_or] at h1
          obtain ⟨_, rfl, _⟩ := h1
          exact Or.inl (by simp)
      · obtain ⟨p, hp⟩ := h.locked hl
        exact ⟨p, List.mem_append_left _ hp⟩
    · cases ha
  · cases ha

theorem Piled.step {m e : Int} {v : Bool} {st st' : St D} (h : Piled st) (hs : Settled m e v st) (hi : Inv st) (a : Act D)
    (hc : Considerate st (.act a)) (ha : apply st a = some st') : Piled st' := by
  by_cases h1 : ∃ t, a = .loadPile t
  · obtain ⟨t, rfl⟩ := h1; exact h.load t ha
  by_cases h2 : ∃ t, a = .storePile t
  · obtain ⟨t, rfl⟩ := h2; exact h.store hs t ha
  by_cases ho : ∀ t, (st.pcs t).Outside
  · refine Piled.of_kept ((outside_of ho h hi.nodup).other a (fun t e => h1 ⟨t, e⟩) (fun t e => h2 ⟨t, e⟩) ?_ ha) (locked_panicked h.locked a ha)
    rintro p rfl; exact hc
  · obtain ⟨t0, h0⟩ := Classical.not_forall.1 ho
    have hb : InGet (st.pcs t0) := by
      cases hq : st.pcs t0 <;> first | trivial | (rw [hq] at h0; exact h0 trivial)
    have alone : ¬ Alone st := fun h => (h t0).1 hb
    have out : ∀ t, (st.pcs t).Outside → ¬ Busy m (st.pcs t) := by
      intro t h3 h4
      have := hs.one t t0 h4 (Or.inl hb)
      subst this; exact h0 h3
    cases a with
    | loadPile t => exact absurd ⟨t, rfl⟩ h1
    | storePile t => exact absurd ⟨t, rfl⟩ h2
    | set t env k d => exact absurd hc alone
    | del k => exact absurd hc alone
    | clean env p => exact absurd hc alone
    | flush => exact absurd hc alone
    | verifyStart t env => exact absurd hc.1 alone
    | setMaxitems m => exact False.elim hc
    | setExpire m => exact False.elim hc
    | setValidator m => exact False.elim hc
    | tear m => exact False.elim hc
    | getStart t k =>
      simp only [CacheConc.apply] at ha
      (repeat' split at ha)
      · rename_i id hid
        exact absurd (hc (by rw [hid]; rfl)) alone
      · simp only [Option.some.injEq] at ha
        subst ha
        refine ⟨h.removing, h.adding, h.sub, panics_append' h.panics (by simp), fun hl => ?_⟩
        obtain ⟨p, hp⟩ := h.locked hl
        exact ⟨p, List.mem_append_left _ hp⟩
      · cases ha
    | setFull t env =>
      simp only [CacheConc.apply] at ha
      split at ha
      · rename_i _ hq
        split at ha
        · rename_i hf
          exact absurd (Or.inr ⟨by rw [← hs.maxitems]; exact hf.1, hq⟩) (out t (by rw [hq]; trivial))
        · cases ha
      · cases ha
    | setOk t =>
      simp only [CacheConc.apply] at ha
      split at ha
      · rename_i hq
        split at ha
        · cases ha
        · simp only [Option.some.injEq] at ha
          subst ha
          exact h.leave (t := t) (by rw [hq]; trivial) rfl rfl rfl rfl rfl
      · cases ha
    | checkVal t ok =>
      simp only [CacheConc.apply] at ha
      split at ha
      · rename_i k id hq
        exact absurd (Or.inl (by rw [hq]; trivial)) (out t (by rw [hq]; trivial))
      · cases ha
    | checkExp t now =>
      simp only [CacheConc.apply] at ha
      split at ha
      · rename_i k id hq
        exact absurd (Or.inl (by rw [hq]; trivial)) (out t (by rw [hq]; trivial))
      · cases ha
    | writeRtime t now =>
      simp only [CacheConc.apply] at ha
      split at ha
      · rename_i k id hq
        exact absurd (Or.inl (by rw [hq]; trivial)) (out t (by rw [hq]; trivial))
      · cases ha
    | getDrop t =>
      simp only [CacheConc.apply] at ha
      split at ha
      · rename_i k id _ hq
        exact absurd (Or.inl (by rw [hq]; trivial)) (out t (by rw [hq]; trivial))
      · cases ha
    | verifyPick t k ok =>
      simp only [CacheConc.apply] at ha
      split at ha
      · rename_i n hq _
        have hb := hs.verify t n (by rw [hq]; rfl)
        have hv := hs.validator
        rw [hb] at hv
        simp only [hv, Bool.false_and, Bool.false_eq_true, if_false, Option.some.injEq] at ha
        subst ha; exact h
      · cases ha
    | verifyDel t =>
      simp only [CacheConc.apply] at ha
      split at ha
      · rename_i k n _ hq
        exact absurd hq (hs.doomed t k n)
      · cases ha
    | verifyEnd t =>
      simp only [CacheConc.apply] at ha
      split at ha
      · rename_i hq
        simp only [Option.some.injEq] at ha
        subst ha
        exact h.leave (t := t) (by rw [hq]; trivial) rfl rfl rfl rfl rfl
      · cases ha

theorem considerate_piled {m e : Int} {v : Bool} {st : St D} (h : ConsiderateRun m e v st) : Piled st := by
  induction h with
  | start =>
    refine ⟨?_, ?_, ?_, ?_, ?_⟩
    · intro t k id p hq; cases hq
    · intro t k id p hq; cases hq
    · intro k id hg; cases hg
    · intro p hp; cases hp
    · intro hl; cases hl
  | step hr hc ha ih =>
    obtain ⟨h1, h2, _⟩ := considerate_inv hr
    exact ih.step h1 h2 _ hc ha

theorem clean_zero_locked (s : Shared D) (env : Env) : (clean s env 0).1.locked = s.locked := by
  rw [clean_eq]
  simp

/-- The steps of a Get of a valid entry up to the place where it moves the key in the pile. -/
theorem up_to_touch {st : St D} {k : Str} {id : Nat} {x : Entry D} (hl : st.sh.locked = false) (hk : st.sh.items.get k = some id)
    (hx : st.sh.heap[id]? = some x) {t : Nat} (h1 : st.pcs t = .idle) (now : Int) (hexp : st.sh.expire = 0 ∨ now ≤ x.ctime + st.sh.expire) :
    ∃ st', runActs st [.getStart t k, .checkVal t true, .checkExp t now, .writeRtime t now] = some st' ∧ st'.pcs t = .touch k id ∧
      (∀ u, u ≠ t → st'.pcs u = st.pcs u) ∧ st'.sh.locked = false ∧ st'.sh.items = st.sh.items ∧ st'.sh.expire = st.sh.expire ∧
      ∀ (j : Nat) (y : Entry D), st.sh.heap[j]? = some y → ∃ y', st'.sh.heap[j]? = some y' ∧ y'.ctime = y.ctime := by
  have c2 : ¬ (st.sh.expire ≠ 0 ∧ x.ctime + st.sh.expire < now) := by rintro ⟨q1, q2⟩; omega
  refine ⟨{ st with
    sh := { st.sh with heap := st.sh.heap.modify id fun e => { e with rtime := now } },
    pcs := upd (upd (upd (upd st.pcs t (.loaded k id)) t (.valOk k id)) t (.good k id)) t (.touch k id) }, ?_, ?_, ?_, hl, rfl, rfl, ?_⟩
  · simp [runActs, apply, h1, hl, hk, hx, upd, c2]
  · simp [upd]
  · intro u hu; simp [upd, hu]
  · intro j y hy
    have := modify_other (heap := st.sh.heap) (id := id) (f := fun e => { e with rtime := now }) (·.ctime) (by intro _; rfl) j
    rw [hy] at this
    cases hq : (st.sh.heap.modify id fun e => { e with rtime := now })[j]? with
    | none => rw [hq] at this; cases this
    | some y' =>
      rw [hq] at this
      simp only [Option.map_some, Option.some.injEq] at this
      exact ⟨y', rfl, this⟩

theorem runActs_append {st st1 : St D} (as bs : List (Act D)) (h : runActs st as = some st1) : runActs st (as ++ bs) = runActs st1 bs := by
  induction as generalizing st with
  | nil => simp only [runActs, Option.some.injEq] at h; subst h; rfl
  | cons a as ih =>
    simp only [List.cons_append, runActs] at h ⊢
    split at h
    · exact ih h
    · cases h

end Xcore.V1.CacheConc
