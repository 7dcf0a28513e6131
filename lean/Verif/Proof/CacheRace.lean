import Verif.Spec.CacheRace
import Verif.Proof.CacheConc

/-! # Which steps of a cache race: proofs -/

namespace Xcore.CacheConc

open Cache

variable {D : Type}

/-! ## Every entry belongs to one key -/

/-- The number of maps that a Verify saw abandoned when it began. -/
def PC.since : PC → Option Nat
  | .verifying m | .vdoomed _ m => some m
  | _ => none

/-- Every entry belongs to one key, `f` tells which. -/
structure Owned (f : Nat → Str) (st : St D) : Prop where
  items : ∀ mp ∈ maps st, ∀ k id, AMap.get mp k = some id → f id = k ∧ id < st.sh.heap.length
  pcs : ∀ t k id, (st.pcs t).holds = some (k, id) → f id = k ∧ id < st.sh.heap.length
  since : ∀ t m, (st.pcs t).since = some m → m ≤ st.left.length

/-- How a step that makes no entry may change the state. -/
structure Small (st st' : St D) : Prop where
  heap : st'.sh.heap.length = st.sh.heap.length
  items : ∀ mp' ∈ maps st', ∀ k id, AMap.get mp' k = some id → ∃ mp ∈ maps st, AMap.get mp k = some id
  pcs : ∀ t k id, (st'.pcs t).holds = some (k, id) → (st.pcs t).holds = some (k, id) ∨ st.sh.items.get k = some id
  since : ∀ t m, (st'.pcs t).since = some m → (st.pcs t).since = some m ∨ m = st.left.length
  left : st.left.length ≤ st'.left.length

theorem mem_maps (st : St D) : st.sh.items ∈ maps st := by simp [maps]

theorem Owned.small {f : Nat → Str} {st st' : St D} (h : Owned f st) (hs : Small st st') : Owned f st' := by
  refine ⟨?_, ?_, ?_⟩
  · intro mp' hm k id hg
    obtain ⟨mp, h1, h2⟩ := hs.items mp' hm k id hg
    rw [hs.heap]; exact h.items mp h1 k id h2
  · intro t k id hg
    rw [hs.heap]
    rcases hs.pcs t k id hg with h1 | h1
    · exact h.pcs t k id h1
    · exact h.items _ (mem_maps st) k id h1
  · intro t m hg
    rcases hs.since t m hg with h1 | h1
    · exact Nat.le_trans (h.since t m h1) hs.left
    · rw [h1]; exact hs.left

/-- The map shrank, no map was abandoned, goroutine `t` moved. -/
theorem Small.of {st st' : St D} (hh : st'.sh.heap.length = st.sh.heap.length) (hl : st'.left = st.left)
    (hi : ∀ k id, st'.sh.items.get k = some id → st.sh.items.get k = some id)
    (hp : ∀ t k id, (st'.pcs t).holds = some (k, id) → (st.pcs t).holds = some (k, id) ∨ st.sh.items.get k = some id)
    (hs : ∀ t m, (st'.pcs t).since = some m → (st.pcs t).since = some m ∨ m = st.left.length) : Small st st' := by
  refine ⟨hh, ?_, hp, hs, by rw [hl]; exact Nat.le_refl _⟩
  intro mp' hm k id hg
  simp only [maps, hl, List.mem_append, List.mem_singleton] at hm
  rcases hm with hm | hm
  · exact ⟨mp', by simp [maps, hm], hg⟩
  · subst hm; exact ⟨_, mem_maps st, hi k id hg⟩

theorem moved_holds {st : St D} {t : Nat} {p : PC}
    (hp : ∀ k id, p.holds = some (k, id) → (st.pcs t).holds = some (k, id) ∨ st.sh.items.get k = some id) :
    ∀ t' k id, (upd st.pcs t p t').holds = some (k, id) → (st.pcs t').holds = some (k, id) ∨ st.sh.items.get k = some id := by
  intro t' k id h
  unfold upd at h
  split at h
  · rename_i e; subst e; exact hp k id h
  · exact Or.inl h

theorem moved_since {st : St D} {t : Nat} {p : PC} (hp : ∀ m, p.since = some m → (st.pcs t).since = some m ∨ m = st.left.length) :
    ∀ t' m, (upd st.pcs t p t').since = some m → (st.pcs t').since = some m ∨ m = st.left.length := by
  intro t' m h
  unfold upd at h
  split at h
  · rename_i e; subst e; exact hp m h
  · exact Or.inl h

theorem get_del_sub {m : AMap Nat} {k0 k : Str} {id : Nat} (h : AMap.get (AMap.del m k0) k = some id) : AMap.get m k = some id := by
  rw [AMap.get_del] at h; split at h
  · cases h
  · exact h

theorem apply_small {st st' : St D} (hn : st.sh.items.Nodup) (a : Act D) (hset : ∀ env k d, a ≠ .set env k d) (ha : apply st a = some st') :
    Small st st' := by
  cases a with
  | set env k d => exact absurd rfl (hset env k d)
  | flush =>
    simp only [CacheConc.apply, Option.some.injEq] at ha
    subst ha
    refine ⟨rfl, ?_, fun t k id h => Or.inl h, fun t m h => Or.inl h, by simp⟩
    intro mp' hm k id hg
    simp only [maps, List.mem_append, List.mem_singleton] at hm
    rcases hm with (hm | hm) | hm
    · exact ⟨mp', by simp [maps, hm], hg⟩
    · subst hm; exact ⟨_, mem_maps st, hg⟩
    · subst hm; simp at hg
  | _ =>
    simp only [CacheConc.apply] at ha
    (repeat' split at ha) <;> first
      | (cases ha; done)
      | (simp only [Option.some.injEq] at ha
         subst ha
         refine Small.of ?_ rfl ?_ ?_ ?_
         · first | rfl | (simp [mClean_heap, modify]; done)
         · first
             | exact fun k id h => h
             | exact fun k id h => get_del_sub h
             | exact fun k id h => mClean_sub hn _ _ k id h
         · first
             | exact fun t k id h => Or.inl h
             | (refine moved_holds fun k id h => ?_
                simp_all [PC.holds]; done)
         · first
             | exact fun t k h => Or.inl h
             | (refine moved_since fun m h => ?_
                simp_all [PC.since]; done))

theorem Owned.set {f : Nat → Str} {st : St D} (h : Owned f st) (hi : Inv st) (env : Env) (k : Str) (d : D) {st' : St D}
    (ha : apply st (.set env k d) = some st') : Owned (fun j => if j = st.sh.heap.length then k else f j) st' := by
  simp only [CacheConc.apply, Option.some.injEq] at ha
  subst ha
  have hheap : (CacheConc.set st.sh env k d).1.heap.length = st.sh.heap.length + 1 := by
    unfold CacheConc.set; dsimp only; split
    · rw [mClean_heap]; simp [setRaw]
    · simp [setRaw]
  have old : ∀ k' id, f id = k' ∧ id < st.sh.heap.length →
      (if id = st.sh.heap.length then k else f id) = k' ∧ id < (CacheConc.set st.sh env k d).1.heap.length := by
    intro k' id ⟨h1, h2⟩
    rw [hheap, if_neg (Nat.ne_of_lt h2)]
    exact ⟨h1, Nat.lt_succ_of_lt h2⟩
  refine ⟨?_, fun t k' id hg => old k' id (h.pcs t k' id hg), h.since⟩
  intro mp hm k' id hg
  simp only [maps, List.mem_append, List.mem_singleton] at hm
  rcases hm with hm | hm
  · exact old k' id (h.items mp (by simp [maps, hm]) k' id hg)
  · subst hm
    have h1 : (setRaw st.sh env k d).items.get k' = some id := by
      unfold CacheConc.set at hg
      dsimp only at hg
      split at hg
      · exact mClean_sub (hi.tracked.setRaw env k d).nodup env 10 k' id hg
      · exact hg
    simp only [setRaw, AMap.get_set] at h1
    split at h1
    · rename_i hk
      simp only [Option.some.injEq] at h1
      subst h1
      refine ⟨by simp [hk], ?_⟩
      show _ < (CacheConc.set st.sh env k d).1.heap.length
      rw [hheap]; exact Nat.lt_succ_self _
    · exact old k' id (h.items _ (mem_maps st) k' id h1)

theorem Owned.step {f : Nat → Str} {st st' : St D} (h : Owned f st) (hi : Inv st) (a : Act D) (ha : apply st a = some st') :
    ∃ f', Owned f' st' := by
  by_cases hset : ∃ env k d, a = .set env k d
  · obtain ⟨env, k, d, rfl⟩ := hset
    exact ⟨_, h.set hi env k d ha⟩
  · exact ⟨f, h.small (apply_small hi.tracked.nodup a (fun env k d e => hset ⟨env, k, d, e⟩) ha)⟩

theorem owned_init (m e : Int) : Owned (fun _ => []) (init m e : St D) := by
  refine ⟨?_, ?_, ?_⟩
  · intro mp hm k id hg
    simp only [maps, init, List.nil_append, List.mem_singleton] at hm
    subst hm; simp at hg
  · intro t k id hg; simp [init, PC.holds] at hg
  · intro t m hg; simp [init, PC.since] at hg

theorem owned_run {f : Nat → Str} {st st' : St D} (h : Owned f st) (hi : Inv st) (as : List (Act D)) (hr : runActs st as = some st') :
    ∃ f', Owned f' st' := by
  induction as generalizing f st with
  | nil => simp only [runActs, Option.some.injEq] at hr; subst hr; exact ⟨f, h⟩
  | cons a as ih =>
    simp only [runActs] at hr
    split at hr
    · rename_i st1 h1
      obtain ⟨f1, hf1⟩ := h.step hi a h1
      exact ih hf1 (hi.apply a h1) hr
    · cases hr

/-! ## Who accesses which cell -/

theorem mem_pickCells {st : St D} {m : Nat} {k : Str} {x : Cell × Bool} :
    x ∈ pickCells st m k ↔ ∃ j items id, m ≤ j ∧ (maps st)[j]? = some items ∧ AMap.get items k = some id ∧
      (x = (.map j, false) ∨ x = (.ctime id, false)) := by
  unfold pickCells
  simp only [List.mem_flatMap, List.mem_range]
  constructor
  · rintro ⟨j, hj, hx⟩
    split at hx
    · rename_i hm
      split at hx
      · rename_i id hid
        obtain ⟨items, h1, h2⟩ := Option.bind_eq_some_iff.1 hid
        refine ⟨j, items, id, hm, h1, h2, ?_⟩
        simpa using hx
      · cases hx
    · cases hx
  · rintro ⟨j, items, id, hm, h1, h2, hx⟩
    refine ⟨j, ?_, ?_⟩
    · exact (List.getElem?_eq_some_iff.1 h1).1
    · rw [if_pos hm, h1]
      simp only [Option.bind_some, h2]
      simpa using hx

theorem mem_ctimes {items : AMap Nat} {x : Cell × Bool} : x ∈ ctimes items → ∃ id, x = (.ctime id, false) := by
  intro h
  simp only [ctimes, List.mem_map] at h
  obtain ⟨p, _, rfl⟩ := h
  exact ⟨_, rfl⟩

theorem acc_pile {st : St D} {mv : Move D} {w : Bool} (h : (Cell.pile, w) ∈ mv.cells st) : mv.held = .exclusive := by
  cases mv with
  | count => simp [Move.cells] at h
  | act a =>
    cases a <;> first
      | rfl
      | (simp only [Move.cells] at h
         (repeat' split at h) <;> simp [mem_pickCells] at h)

theorem acc_data {st : St D} {mv : Move D} {id : Nat} {w : Bool} (h : (Cell.data id, w) ∈ mv.cells st) : mv.held = .exclusive := by
  cases mv with
  | count => simp [Move.cells] at h
  | act a =>
    cases a <;> first
      | rfl
      | (simp only [Move.cells] at h
         (repeat' split at h) <;> simp [mem_pickCells] at h)

theorem acc_rtime {st : St D} {mv : Move D} {id : Nat} {w : Bool} (h : (Cell.rtime id, w) ∈ mv.cells st) :
    (mv.held = .exclusive ∧ id = st.sh.heap.length) ∨ ∃ t now k, mv = .act (.writeRtime t now) ∧ st.pcs t = .good k id := by
  cases mv with
  | count => simp [Move.cells] at h
  | act a =>
    cases a <;> simp only [Move.cells] at h <;> (repeat' split at h) <;>
      simp_all [mem_pickCells, cleanCells, delCells, ctimes, Move.held]

theorem acc_ttl {st : St D} {mv : Move D} {id : Nat} {w : Bool} (h : (Cell.ttl id, w) ∈ mv.cells st) :
    (mv.held = .exclusive ∧ id = st.sh.heap.length) ∨ (∃ k d, mv = .act (.setTTL k d) ∧ st.sh.items.get k = some id) ∨
      ∃ t now k, w = false ∧ mv = .act (.checkTTL t now) ∧ st.pcs t = .loaded k id := by
  cases mv with
  | count => simp [Move.cells] at h
  | act a =>
    cases a <;> simp only [Move.cells] at h <;> (repeat' split at h) <;>
      simp_all [mem_pickCells, cleanCells, delCells, ctimes, Move.held]

theorem acc_items {st : St D} {mv : Move D} {w : Bool} (h : (Cell.items, w) ∈ mv.cells st) :
    (w = true → mv = .act .flush) ∧ (mv.held ≠ .no ∨ (st.sh.hasValidator = true ∧ Loops st false mv)) := by
  cases mv with
  | count => simp_all [Move.cells, Move.held]
  | act a =>
    cases a <;> simp only [Move.cells] at h <;> (repeat' split at h) <;>
      simp_all [mem_pickCells, cleanCells, delCells, ctimes, Move.held, Loops]

theorem acc_map {st : St D} {mv : Move D} {j : Nat} {w : Bool} (h : (Cell.map j, w) ∈ mv.cells st) :
    (w = true → j = st.left.length ∧ WritesMap mv) ∧
      (mv.held ≠ .no ∨ (st.sh.hasValidator = true ∧ (j = st.left.length → Loops st true mv))) := by
  cases mv with
  | count => simp_all [Move.cells, Move.held]
  | act a =>
    cases a with
    | verifyPick t k ok =>
      simp only [Move.cells] at h
      split at h
      · split at h
        · rename_i hv
          simp only [List.cons_append, List.nil_append, List.mem_cons, mem_pickCells, Prod.mk.injEq, reduceCtorEq, false_and, false_or] at h
          obtain ⟨j', items, id, _, h1, h2, h3⟩ := h
          simp only [Cell.map.injEq, or_false, reduceCtorEq, false_and] at h3
          obtain ⟨rfl, rfl⟩ := h3
          refine ⟨by simp, Or.inr ⟨hv, ?_⟩⟩
          intro hj
          subst hj
          simp only [maps, List.getElem?_concat_length, Option.some.injEq] at h1
          subst h1
          simp [Loops, h2]
        · cases h
      · cases h
    | _ =>
      simp only [Move.cells] at h <;> (repeat' split at h) <;>
        simp_all [cleanCells, delCells, ctimes, Move.held, Loops, WritesMap]
      all_goals (obtain ⟨_, _, _, hw⟩ := h; exact hw)

theorem acc_ctime {f : Nat → Str} {st : St D} (ho : Owned f st) {mv : Move D} {id : Nat} {w : Bool} (h : (Cell.ctime id, w) ∈ mv.cells st) :
    (w = true → mv.held = .exclusive ∧ id = st.sh.heap.length) ∧ (mv.held = .exclusive ∨ id < st.sh.heap.length) := by
  have hp : ∀ t k id, (st.pcs t).holds = some (k, id) → id < st.sh.heap.length := fun t k id h => (ho.pcs t k id h).2
  cases mv with
  | count => simp [Move.cells] at h
  | act a =>
    cases a with
    | verifyPick t k ok =>
      simp only [Move.cells] at h
      split at h
      · split at h
        · simp only [List.cons_append, List.nil_append, List.mem_cons, mem_pickCells, Prod.mk.injEq, reduceCtorEq, false_and, false_or] at h
          obtain ⟨j', items, id, _, h1, h2, h3⟩ := h
          simp only [Cell.ctime.injEq, reduceCtorEq, false_and, false_or] at h3
          obtain ⟨rfl, rfl⟩ := h3
          exact ⟨by simp, Or.inr (ho.items items (List.mem_of_getElem? h1) k _ h2).2⟩
        · cases h
      · cases h
    | checkTTL t now =>
      simp only [Move.cells] at h
      split at h
      · rename_i k id' hq
        simp only [List.mem_cons, Prod.mk.injEq, reduceCtorEq, false_and, Cell.ctime.injEq, List.not_mem_nil, or_false, false_or] at h
        obtain ⟨rfl, rfl⟩ := h
        exact ⟨by simp, Or.inr (hp t k _ (by rw [hq]; rfl))⟩
      · cases h
    | checkVal t now =>
      simp only [Move.cells] at h
      split at h
      · rename_i k id' hq
        simp only [List.mem_cons, Prod.mk.injEq, reduceCtorEq, false_and, Cell.ctime.injEq, List.not_mem_nil, or_false, false_or] at h
        obtain ⟨rfl, rfl⟩ := h
        exact ⟨by simp, Or.inr (hp t k _ (by rw [hq]; rfl))⟩
      · cases h
    | checkExp t now =>
      simp only [Move.cells] at h
      split at h
      · rename_i k id' hq
        simp only [List.mem_cons, Prod.mk.injEq, reduceCtorEq, false_and, Cell.ctime.injEq, List.not_mem_nil, or_false, false_or] at h
        obtain ⟨rfl, rfl⟩ := h
        exact ⟨by simp, Or.inr (hp t k _ (by rw [hq]; rfl))⟩
      · cases h
    | _ =>
      simp only [Move.cells] at h <;> (repeat' split at h) <;>
        simp_all [cleanCells, delCells, ctimes, Move.held]
      all_goals (intro hw; rw [hw] at h; simpa using h)

/-- The cell of an exported field. -/
def Field.cell : Field → Cell
  | .maxitems => .maxitems
  | .expire => .expire
  | .validator => .validator

theorem setRaw_length (st : St D) (env : Env) (k : Str) (d : D) : (setRaw st.sh env k d).items.length = countWith st k := by
  have hk : k ∈ AMap.keys st.sh.items ↔ (st.sh.items.get k).isSome = true := by
    rw [AMap.mem_keys_iff, Option.isSome_iff_exists]
  simp only [setRaw, AMap.length_set, countWith]
  by_cases h : k ∈ AMap.keys st.sh.items
  · rw [if_pos h, if_pos (hk.1 h)]
  · rw [if_neg h, if_neg (fun h' => h (hk.2 h'))]

theorem acc_field {st : St D} {mv : Move D} (f : Field) {w : Bool} (h : (f.cell, w) ∈ mv.cells st) :
    (w = true → Assigns f mv) ∧ Uses st f mv := by
  cases mv with
  | count => cases f <;> simp [Move.cells, Field.cell] at h
  | act a =>
    cases f <;> cases a <;> simp only [Move.cells, Field.cell, setRaw_length] at h <;> (repeat' split at h) <;>
      simp_all [mem_pickCells, cleanCells, delCells, ctimes, Assigns, Uses]

/-! ## The kinds of races -/

theorem excl_of {a b : Move D} (hx : ¬ Excludes a.held b.held) (ha : a.held = .exclusive) : b.held = .no := by
  rw [ha] at hx
  cases hb : b.held with
  | no => rfl
  | shared => rw [hb] at hx; exact absurd trivial hx
  | exclusive => rw [hb] at hx; exact absurd trivial hx

theorem excludes_comm {x y : Held} : Excludes x y ↔ Excludes y x := by cases x <;> cases y <;> simp [Excludes]

theorem WritesMap.held {a : Move D} (h : WritesMap a) : a.held = .exclusive := by
  cases a with
  | count => cases h
  | act a => cases a <;> first | rfl | cases h

theorem Loops.unlocked {st : St D} {here : Bool} {a : Move D} (h : Loops st here a) : a.held = .no := by
  cases a with
  | count => cases h
  | act a => cases a <;> first | rfl | cases h

theorem Assigns.unlocked {f : Field} {a : Move D} (h : Assigns f a) : a.held = .no := by
  cases a with
  | count => cases f <;> cases h
  | act a => cases f <;> cases a <;> first | rfl | cases h

/-- A write and another access of the same cell, not kept apart. -/
theorem clash_of {f : Nat → Str} {st : St D} (ho : Owned f st) {a b : Move D} (hx : ¬ Excludes a.held b.held) {cell : Cell} {w : Bool}
    (ha : (cell, true) ∈ a.cells st) (hb : (cell, w) ∈ b.cells st) : Clash st a b ∨ Clash st b a := by
  have field : ∀ g : Field, cell = g.cell → Clash st a b ∨ Clash st b a := by
    intro g hg
    subst hg
    exact Or.inl (.field g ((acc_field g ha).1 rfl) (acc_field g hb).2)
  have excl : a.held = .exclusive → b.held ≠ .no → Clash st a b ∨ Clash st b a := fun h1 h2 => absurd (excl_of hx h1) h2
  cases cell with
  | maxitems => exact field .maxitems rfl
  | expire => exact field .expire rfl
  | validator => exact field .validator rfl
  | pile => exact excl (acc_pile ha) (by rw [acc_pile hb]; simp)
  | data id => exact excl (acc_data ha) (by rw [acc_data hb]; simp)
  | items =>
    have h1 := (acc_items ha).1 rfl
    subst h1
    rcases (acc_items hb).2 with h2 | ⟨h2, h3⟩
    · exact excl rfl h2
    · exact Or.inl (.flush h2 h3)
  | map j =>
    obtain ⟨rfl, h1⟩ := (acc_map ha).1 rfl
    rcases (acc_map hb).2 with h2 | ⟨h2, h3⟩
    · exact excl h1.held h2
    · exact Or.inl (.loop h2 h1 (h3 rfl))
  | ctime id =>
    obtain ⟨h1, rfl⟩ := (acc_ctime ho ha).1 rfl
    rcases (acc_ctime ho hb).2 with h2 | h2
    · exact excl h1 (by rw [h2]; simp)
    · exact absurd h2 (Nat.lt_irrefl _)
  | rtime id =>
    have lt : ∀ t k, st.pcs t = .good k st.sh.heap.length → False := fun t k h =>
      absurd (ho.pcs t k _ (by rw [h]; rfl)).2 (Nat.lt_irrefl _)
    rcases acc_rtime ha with ⟨h1, rfl⟩ | ⟨t, now, k, rfl, h1⟩ <;> rcases acc_rtime hb with ⟨h2, h3⟩ | ⟨t', now', k', rfl, h2⟩
    · exact excl h1 (by rw [h2]; simp)
    · exact (lt t' k' h2).elim
    · subst h3; exact (lt t k h1).elim
    · have e1 := (ho.pcs t k id (by rw [h1]; rfl)).1
      have e2 := (ho.pcs t' k' id (by rw [h2]; rfl)).1
      have e : k = k' := e1.symm.trans e2
      subst e
      exact Or.inl (.rtime h1 h2)
  | ttl id =>
    have lt : ∀ t k, st.pcs t = .loaded k st.sh.heap.length → False := fun t k h =>
      absurd (ho.pcs t k _ (by rw [h]; rfl)).2 (Nat.lt_irrefl _)
    rcases acc_ttl ha with ⟨h1, rfl⟩ | ⟨k, d, rfl, h1⟩ | ⟨_, _, _, h, _⟩
    · rcases acc_ttl hb with ⟨h2, h3⟩ | ⟨k', d', rfl, h2⟩ | ⟨t', now', k', _, rfl, h2⟩
      · exact excl h1 (by rw [h2]; simp)
      · exact excl h1 (by simp [Move.held])
      · exact (lt t' k' h2).elim
    · rcases acc_ttl hb with ⟨h2, h3⟩ | ⟨k', d', rfl, h2⟩ | ⟨t', now', k', _, rfl, h2⟩
      · exact excl rfl (by rw [h2]; simp)
      · exact excl rfl (by simp [Move.held])
      · have e1 := (ho.items _ (mem_maps st) k id h1).1
        have e2 := (ho.pcs t' k' id (by rw [h2]; rfl)).1
        have e : k = k' := e1.symm.trans e2
        subst e
        exact Or.inl (.ttl h1 h2)
    · cases h

theorem race_clash {f : Nat → Str} {st : St D} (ho : Owned f st) {a b : Move D} (h : Race st a b) : Clash st a b ∨ Clash st b a := by
  obtain ⟨_, hx, cell, wa, wb, ha, hb, hw⟩ := h
  rcases hw with rfl | rfl
  · exact clash_of ho hx ha hb
  · exact (clash_of ho (fun h => hx (excludes_comm.1 h)) hb ha).symm

theorem uses_cell {st : St D} {f : Field} {mv : Move D} (hab : mv.able st = true) (h : Uses st f mv) : ∃ w, (f.cell, w) ∈ mv.cells st := by
  cases mv with
  | count => cases f <;> cases h
  | act a =>
    cases f <;> cases a <;> simp only [Uses] at h <;>
      simp only [Move.able, CacheConc.apply] at hab <;> simp only [Move.cells, Field.cell, setRaw_length] <;>
      (repeat' split at hab) <;> simp_all [cleanCells]

theorem assigns_cell {st : St D} {f : Field} {mv : Move D} (h : Assigns f mv) : (f.cell, true) ∈ mv.cells st := by
  cases mv with
  | count => cases f <;> cases h
  | act a => cases f <;> cases a <;> first | exact False.elim h | simp [Move.cells, Field.cell]

theorem writes_cell {st : St D} {mv : Move D} (h : WritesMap mv) : (Cell.map st.left.length, true) ∈ mv.cells st := by
  cases mv with
  | count => cases h
  | act a => cases a <;> first | exact False.elim h | simp [Move.cells, cleanCells, delCells]

theorem loops_items {st : St D} {here : Bool} {mv : Move D} (hab : mv.able st = true) (hv : st.sh.hasValidator = true)
    (h : Loops st here mv) : (Cell.items, false) ∈ mv.cells st := by
  cases mv with
  | count => cases h
  | act a =>
    cases a <;> first
      | exact False.elim h
      | (simp only [Move.able, CacheConc.apply] at hab
         simp only [Move.cells]
         (repeat' split at hab) <;> simp_all)

theorem loops_map {f : Nat → Str} {st : St D} (ho : Owned f st) {mv : Move D} (hab : mv.able st = true) (hv : st.sh.hasValidator = true)
    (h : Loops st true mv) : (Cell.map st.left.length, false) ∈ mv.cells st := by
  cases mv with
  | count => cases h
  | act a =>
    cases a with
    | verifyPick t k ok =>
      simp only [Loops, true_implies] at h
      obtain ⟨id, hid⟩ := Option.isSome_iff_exists.1 h
      cases hq : st.pcs t with
      | verifying m =>
        simp only [Move.cells, hq, hv, if_true, List.mem_append, mem_pickCells]
        exact Or.inr ⟨st.left.length, st.sh.items, id, ho.since t m (by rw [hq]; rfl), by simp [maps], hid, Or.inl rfl⟩
      | _ => simp [Move.able, CacheConc.apply, hq] at hab
    | verifyEnd t =>
      cases hq : st.pcs t with
      | verifying m =>
        have hm := ho.since t m (by rw [hq]; rfl)
        simp [Move.cells, hq, hv, maps, hm]
      | _ => simp [Move.able, CacheConc.apply, hq] at hab
    | _ => cases h

theorem clash_race {f : Nat → Str} {st : St D} (ho : Owned f st) {a b : Move D} (hc : Concurrent st a b) (h : Clash st a b) :
    ¬ Excludes a.held b.held ∧ ∃ cell w, (cell, true) ∈ a.cells st ∧ (cell, w) ∈ b.cells st := by
  have no : b.held = .no → ¬ Excludes a.held b.held := by
    intro h; rw [h]; cases a.held <;> simp [Excludes]
  have no' : a.held = .no → ¬ Excludes a.held b.held := by
    intro h; rw [h]; cases b.held <;> simp [Excludes]
  cases h with
  | @rtime t t' now now' k id h1 h2 => exact ⟨no rfl, .rtime id, true, by simp [Move.cells, h1], by simp [Move.cells, h2]⟩
  | @ttl t now d k id h1 h2 => exact ⟨no rfl, .ttl id, false, by simp [Move.cells, h1], by simp [Move.cells, h2]⟩
  | loop hv h1 h2 => exact ⟨no h2.unlocked, _, false, writes_cell h1, loops_map ho hc.2.1 hv h2⟩
  | flush hv h2 => exact ⟨no h2.unlocked, .items, false, by simp [Move.cells], loops_items hc.2.1 hv h2⟩
  | field g h1 h2 =>
    obtain ⟨w, hw⟩ := uses_cell hc.2.1 h2
    exact ⟨no' h1.unlocked, _, w, assigns_cell h1, hw⟩

theorem concurrent_comm {st : St D} {a b : Move D} (h : Concurrent st a b) : Concurrent st b a :=
  ⟨h.2.1, h.1, fun t hb ha => h.2.2 t ha hb⟩

theorem race_iff {f : Nat → Str} {st : St D} (ho : Owned f st) (a b : Move D) :
    Race st a b ↔ Concurrent st a b ∧ (Clash st a b ∨ Clash st b a) := by
  constructor
  · intro h; exact ⟨h.1, race_clash ho h⟩
  · rintro ⟨hc, h | h⟩
    · obtain ⟨hx, cell, w, h1, h2⟩ := clash_race ho hc h
      exact ⟨hc, hx, cell, true, w, h1, h2, Or.inl rfl⟩
    · obtain ⟨hx, cell, w, h1, h2⟩ := clash_race ho (concurrent_comm hc) h
      exact ⟨hc, fun h => hx (excludes_comm.1 h), cell, w, true, h2, h1, Or.inr rfl⟩

/-! ## The accesses fit the steps -/

/-- The heap, the fields and the abandoned maps stay; only the map and the pile change. -/
theorem sameContent_of {st st' : St D} (hm : st'.sh.maxitems = st.sh.maxitems) (he : st'.sh.expire = st.sh.expire)
    (hv : st'.sh.hasValidator = st.sh.hasValidator) (hl : st'.left = st.left) (hh : st'.sh.heap = st.sh.heap) (c : Cell)
    (hp : st'.sh.pile = st.sh.pile ∨ c ≠ .pile) (hi : st'.sh.items = st.sh.items ∨ c ≠ .map st.left.length) : SameContent st st' c := by
  cases c with
  | maxitems => exact hm
  | expire => exact he
  | validator => exact hv
  | items => simp only [SameContent, hl]
  | map n =>
    intro items h
    rcases hi with hi | hi
    · rw [hl, hi]; exact h
    · rw [hl]
      have hne : n ≠ st.left.length := fun e => hi (by rw [e])
      rcases Nat.lt_or_ge n st.left.length with hlt | hge
      · rw [List.getElem?_append_left hlt] at h ⊢; exact h
      · rw [List.getElem?_eq_none (by simp; omega)] at h; cases h
  | pile => rcases hp with hp | hp
            · exact hp
            · exact absurd rfl hp
  | ctime id => simp only [SameContent, hh]
  | rtime id => simp only [SameContent, hh]
  | ttl id => simp only [SameContent, hh]
  | data id => simp only [SameContent, hh]

theorem mClean_validator (s : Shared D) (env : Env) (p : Int) : (mClean s env p).1.hasValidator = s.hasValidator := by
  unfold mClean; dsimp only; split <;> rfl

theorem set_validator (s : Shared D) (env : Env) (k : Str) (d : D) : (set s env k d).1.hasValidator = s.hasValidator := by
  unfold set; dsimp only; split
  · rw [mClean_validator]; rfl
  · rfl

theorem mClean_expire (s : Shared D) (env : Env) (p : Int) : (mClean s env p).1.expire = s.expire := by
  unfold mClean; dsimp only; split <;> rfl

theorem modify_other {heap : List (Entry D)} {id : Nat} {f : Entry D → Entry D} {α : Type} (g : Entry D → α) (hg : ∀ e, g (f e) = g e) (j : Nat) :
    (modify heap id f)[j]?.map g = heap[j]?.map g := by
  unfold modify
  rw [List.getElem?_modify]
  cases heap[j]? with
  | none => rfl
  | some e => simp only [Option.map_eq_map, Option.map_some]; split <;> simp [hg]

theorem modify_ne {heap : List (Entry D)} {id j : Nat} {f : Entry D → Entry D} (h : j ≠ id) : (modify heap id f)[j]? = heap[j]? := by
  unfold modify
  rw [List.getElem?_modify]
  cases heap[j]? with
  | none => rfl
  | some e => simp [h.symm]

theorem writes_declared {st st' : St D} (a : Act D) (ha : apply st a = some st') (c : Cell) (hc : (c, true) ∉ (Move.act a).cells st) :
    SameContent st st' c := by
  cases a with
  | set env k d =>
    simp only [CacheConc.apply, Option.some.injEq] at ha
    subst ha
    simp only [Move.cells, List.mem_append, List.mem_cons, Prod.mk.injEq, not_or] at hc
    obtain ⟨⟨_, h1, h2, _, h3, h4, h5, h6, _⟩, _⟩ := hc
    have heap : (CacheConc.set st.sh env k d).1.heap = st.sh.heap ++ [{ ctime := env.clk 0, rtime := env.clk 1, ttl := 0, data := d }] := by
      unfold CacheConc.set; dsimp only; split
      · rw [mClean_heap]; rfl
      · rfl
    have hj : ∀ j, j ≠ st.sh.heap.length → (CacheConc.set st.sh env k d).1.heap[j]? = st.sh.heap[j]? := by
      intro j hj
      rw [heap]
      rcases Nat.lt_or_ge j st.sh.heap.length with hlt | hge
      · rw [List.getElem?_append_left hlt]
      · rw [List.getElem?_eq_none (by simp; omega), List.getElem?_eq_none hge]
    cases c with
    | maxitems =>
      simp only [SameContent, CacheConc.set]; split
      · exact mClean_maxitems _ _ _
      · rfl
    | expire =>
      simp only [SameContent, CacheConc.set]; split
      · exact mClean_expire _ _ _
      · rfl
    | validator => exact set_validator _ _ _ _
    | items => rfl
    | map n =>
      intro items h
      have hne : n ≠ st.left.length := fun e => h1 ⟨by rw [e], trivial⟩
      rcases Nat.lt_or_ge n st.left.length with hlt | hge
      · rw [List.getElem?_append_left hlt] at h ⊢; exact h
      · rw [List.getElem?_eq_none (by simp; omega)] at h; cases h
    | pile => exact absurd ⟨rfl, trivial⟩ h2
    | ctime j => simp only [SameContent]; rw [hj j (fun e => h3 ⟨by rw [e], trivial⟩)]
    | rtime j => simp only [SameContent]; rw [hj j (fun e => h4 ⟨by rw [e], trivial⟩)]
    | ttl j => simp only [SameContent]; rw [hj j (fun e => h5 ⟨by rw [e], trivial⟩)]
    | data j => simp only [SameContent]; rw [hj j (fun e => h6 ⟨by rw [e], trivial⟩)]
  | setTTL k ttl =>
    simp only [CacheConc.apply] at ha
    simp only [Move.cells] at hc
    split at ha
    · rename_i id hid
      simp only [Option.some.injEq] at ha
      subst ha
      cases c with
      | ttl j =>
        have : j ≠ id := by intro e; subst e; simp [hid] at hc
        simp only [SameContent]; rw [modify_ne this]
      | ctime j => exact modify_other (·.ctime) (by intro _; rfl) j
      | rtime j => exact modify_other (·.rtime) (by intro _; rfl) j
      | data j => exact modify_other (·.data) (by intro _; rfl) j
      | map n => exact fun items h => h
      | _ => rfl
    · simp only [Option.some.injEq] at ha
      subst ha
      exact sameContent_of rfl rfl rfl rfl rfl c (Or.inl rfl) (Or.inl rfl)
  | flush =>
    simp only [CacheConc.apply, Option.some.injEq] at ha
    subst ha
    cases c with
    | items => simp [Move.cells] at hc
    | map n =>
      intro items h
      have : n < (st.left ++ [st.sh.items]).length := (List.getElem?_eq_some_iff.1 h).1
      show ((st.left ++ [st.sh.items]) ++ [[]])[n]? = some items
      rw [List.getElem?_append_left this]; exact h
    | _ => rfl
  | setMaxitems m =>
    simp only [CacheConc.apply, Option.some.injEq] at ha
    subst ha
    cases c with
    | maxitems => simp [Move.cells] at hc
    | map n => exact fun items h => h
    | _ => rfl
  | setExpire m =>
    simp only [CacheConc.apply, Option.some.injEq] at ha
    subst ha
    cases c with
    | expire => simp [Move.cells] at hc
    | map n => exact fun items h => h
    | _ => rfl
  | setValidator m =>
    simp only [CacheConc.apply, Option.some.injEq] at ha
    subst ha
    cases c with
    | validator => simp [Move.cells] at hc
    | map n => exact fun items h => h
    | _ => rfl
  | writeRtime t now =>
    simp only [CacheConc.apply] at ha
    split at ha
    · rename_i k id hid
      simp only [Option.some.injEq] at ha
      subst ha
      simp only [Move.cells, hid] at hc
      cases c with
      | rtime j =>
        have : j ≠ id := by intro e; subst e; simp at hc
        simp only [SameContent]; rw [modify_ne this]
      | ctime j => exact modify_other (·.ctime) (by intro _; rfl) j
      | ttl j => exact modify_other (·.ttl) (by intro _; rfl) j
      | data j => exact modify_other (·.data) (by intro _; rfl) j
      | map n => exact fun items h => h
      | _ => rfl
    · cases ha
  | _ =>
    simp only [CacheConc.apply] at ha
    (repeat' split at ha) <;> first
      | (cases ha; done)
      | (simp only [Option.some.injEq] at ha
         subst ha
         refine sameContent_of ?_ ?_ ?_ (by rfl) ?_ c ?_ ?_
         · first | rfl | exact mClean_maxitems _ _ _
         · first | rfl | exact mClean_expire _ _ _
         · first | rfl | exact mClean_validator _ _ _
         · first | rfl | exact mClean_heap _ _ _
         · first
             | exact Or.inl rfl
             | (right; intro e; subst e; simp_all [Move.cells, delCells, cleanCells]; done)
         · first
             | exact Or.inl rfl
             | (right; intro e; subst e; simp_all [Move.cells, delCells, cleanCells]; done))

/-! ## The steps depend only on what they access -/

theorem swept_congr {s1 s2 : Shared D} (env : Env) (hi : s2.items = s1.items) (he : s2.expire = s1.expire)
    (hc : ∀ p ∈ s1.items, s2.heap[p.2]?.map (·.ctime) = s1.heap[p.2]?.map (·.ctime)) : swept s2 env = swept s1 env := by
  unfold swept
  rw [hi, he]
  split
  · refine List.filter_congr fun p hp => ?_
    have := hc p hp
    cases h1 : s1.heap[p.2]? <;> cases h2 : s2.heap[p.2]? <;> simp_all
  · rfl

theorem mClean_congr {s1 s2 : Shared D} (env : Env) (q : Int) (hi : s2.items = s1.items) (hp : s2.pile = s1.pile) (he : s2.expire = s1.expire)
    (hc : ∀ p ∈ s1.items, s2.heap[p.2]?.map (·.ctime) = s1.heap[p.2]?.map (·.ctime)) :
    (mClean s2 env q).1.items = (mClean s1 env q).1.items ∧ (mClean s2 env q).1.pile = (mClean s1 env q).1.pile ∧
      (mClean s2 env q).2 = (mClean s1 env q).2 := by
  have hs := swept_congr env hi he hc
  have e : ∀ s : Shared D, mClean s env q = match evictLoop (cleanNum (swept s env).length q).toNat (swept s env) s.pile with
    | (items', some pile') => ({ s with items := items', pile := pile' }, true)
    | (items', none) => ({ s with items := items' }, false) := fun s => rfl
  rw [e s2, e s1, hs, hp]
  split <;> simp_all

theorem same_items {st st2 : St D} (h1 : SameContent st st2 .items) (h2 : SameContent st st2 (.map st.left.length)) :
    st2.sh.items = st.sh.items := by
  have h := h2 st.sh.items (by simp)
  have h1' : st.left.length = st2.left.length := h1.symm
  rw [h1'] at h
  simpa using h

theorem clean_agree {st st2 : St D} (env : Env) (q : Int) (h : ∀ c w, (c, w) ∈ cleanCells st st.sh.items → SameContent st st2 c) :
    (mClean st2.sh env q).1.items = (mClean st.sh env q).1.items ∧ (mClean st2.sh env q).1.pile = (mClean st.sh env q).1.pile ∧
      (mClean st2.sh env q).2 = (mClean st.sh env q).2 ∧ st2.left.length = st.left.length := by
  have h1 : SameContent st st2 .items := h .items false (by simp [cleanCells])
  have hi := same_items h1 (h (.map st.left.length) true (by simp [cleanCells]))
  have := mClean_congr (s1 := st.sh) (s2 := st2.sh) env q hi (h .pile true (by simp [cleanCells])) (h .expire false (by simp [cleanCells]))
    (fun p hp => h (.ctime p.2) false (by simp only [cleanCells, ctimes, List.mem_append, List.mem_map]; exact Or.inr ⟨p, hp, rfl⟩))
  exact ⟨this.1, this.2.1, this.2.2, h1⟩

theorem del_agree {st st2 : St D} (k : Str) (h : ∀ c w, (c, w) ∈ delCells st → SameContent st st2 c) :
    (del st2.sh k).items = (del st.sh k).items ∧ (del st2.sh k).pile = (del st.sh k).pile ∧ st2.left.length = st.left.length := by
  have h1 : SameContent st st2 .items := h .items false (by simp [delCells])
  have hi := same_items h1 (h (.map st.left.length) true (by simp [delCells]))
  have hp : st2.sh.pile = st.sh.pile := h .pile true (by simp [delCells])
  refine ⟨by simp [del, hi], by simp [del, hp], h1⟩

theorem map_same {st1 st2 : St D} {items1 items2 : AMap Nat} {n : Nat} (hl : st2.left.length = st1.left.length) (hi : items2 = items1)
    (hn : n = st1.left.length) (items : AMap Nat) (h : (st1.left ++ [items1])[n]? = some items) : (st2.left ++ [items2])[n]? = some items := by
  subst hn
  rw [hi]
  simp only [List.getElem?_concat_length] at h
  rw [← hl]
  simpa using h

theorem depends_only {st st1 st2 : St D} (a : Act D) (ha : apply st a = some st1) (hp : st2.pcs = st.pcs)
    (hh : st2.sh.heap.length = st.sh.heap.length) (hsince : ∀ t m, (st.pcs t).since = some m → m ≤ st.left.length) (hv : ∀ t k ok, a = .verifyPick t k ok → st.sh.hasValidator = true)
    (hag : Agree st st2 (.act a)) :
    ∃ st2', apply st2 a = some st2' ∧ st2'.pcs = st1.pcs ∧ (∃ new, st1.obs = st.obs ++ new ∧ st2'.obs = st2.obs ++ new) ∧
      ∀ c, (c, true) ∈ (Move.act a).cells st → SameContent st1 st2' c := by
  cases a with
  | set env k d =>
    simp only [CacheConc.apply, Option.some.injEq] at ha
    subst ha
    have h1 : SameContent st st2 .items := hag .items false (by simp [Move.cells])
    have hi := same_items h1 (hag (.map st.left.length) true (by simp [Move.cells]))
    have hpile : st2.sh.pile = st.sh.pile := hag .pile true (by simp [Move.cells])
    have hm : st2.sh.maxitems = st.sh.maxitems := hag .maxitems false (by simp [Move.cells])
    have r1 : (setRaw st2.sh env k d).items = (setRaw st.sh env k d).items := by simp [setRaw, hi, hh]
    have r2 : (setRaw st2.sh env k d).pile = (setRaw st.sh env k d).pile := by simp [setRaw, hi, hpile]
    have key : (CacheConc.set st2.sh env k d).1.items = (CacheConc.set st.sh env k d).1.items ∧
        (CacheConc.set st2.sh env k d).1.pile = (CacheConc.set st.sh env k d).1.pile ∧
        (CacheConc.set st2.sh env k d).2 = (CacheConc.set st.sh env k d).2 := by
      unfold CacheConc.set
      dsimp only
      by_cases hfull : 0 < st.sh.maxitems ∧ st.sh.maxitems ≤ (setRaw st.sh env k d).items.length
      · have hfull1 : 0 < (setRaw st.sh env k d).maxitems ∧ (setRaw st.sh env k d).maxitems ≤ (setRaw st.sh env k d).items.length := hfull
        have hfull2 : 0 < (setRaw st2.sh env k d).maxitems ∧ (setRaw st2.sh env k d).maxitems ≤ (setRaw st2.sh env k d).items.length := by
          show 0 < st2.sh.maxitems ∧ st2.sh.maxitems ≤ _
          rw [r1, hm]; exact hfull
        rw [if_pos hfull1, if_pos hfull2]
        refine mClean_congr env 10 r1 r2 (hag .expire false ?_) ?_
        · simp only [Move.cells, if_pos hfull]; simp [cleanCells]
        · intro p hp
          have hc : SameContent st st2 (.ctime p.2) := hag (.ctime p.2) false (by
            simp only [Move.cells, if_pos hfull, cleanCells, ctimes, List.mem_append, List.mem_map]
            exact Or.inr (Or.inr ⟨p, hp, rfl⟩))
          simp only [SameContent] at hc
          simp only [setRaw]
          rcases Nat.lt_trichotomy p.2 st.sh.heap.length with hlt | heq | hgt
          · rw [List.getElem?_append_left hlt, List.getElem?_append_left (by rw [hh]; exact hlt)]; exact hc
          · rw [heq, List.getElem?_concat_length, ← hh, List.getElem?_concat_length]
          · rw [List.getElem?_eq_none (by simp; omega), List.getElem?_eq_none (by simp; omega)]
      · have hfull1 : ¬ (0 < (setRaw st.sh env k d).maxitems ∧ (setRaw st.sh env k d).maxitems ≤ (setRaw st.sh env k d).items.length) := hfull
        have hfull2 : ¬ (0 < (setRaw st2.sh env k d).maxitems ∧ (setRaw st2.sh env k d).maxitems ≤ (setRaw st2.sh env k d).items.length) := by
          show ¬ (0 < st2.sh.maxitems ∧ st2.sh.maxitems ≤ _)
          rw [r1, hm]; exact hfull
        rw [if_neg hfull1, if_neg hfull2]
        exact ⟨r1, r2, rfl⟩
    have heap : ∀ s : Shared D, (CacheConc.set s env k d).1.heap = s.heap ++ [{ ctime := env.clk 0, rtime := env.clk 1, ttl := 0, data := d }] := by
      intro s; unfold CacheConc.set; dsimp only; split
      · rw [mClean_heap]; rfl
      · rfl
    have new : (CacheConc.set st2.sh env k d).1.heap[st.sh.heap.length]? = (CacheConc.set st.sh env k d).1.heap[st.sh.heap.length]? := by
      rw [heap, heap, List.getElem?_concat_length, ← hh, List.getElem?_concat_length]
    refine ⟨_, rfl, hp, ⟨_, rfl, by rw [key.2.2]⟩, ?_⟩
    intro c hc
    simp only [Move.cells, List.mem_append, List.mem_cons, Prod.mk.injEq, List.not_mem_nil, or_false] at hc
    rcases hc with hc | hc
    · rcases hc with h | ⟨rfl, _⟩ | ⟨rfl, _⟩ | h | ⟨rfl, _⟩ | ⟨rfl, _⟩ | ⟨rfl, _⟩ | ⟨rfl, _⟩
      · simp at h
      · exact map_same (n := st.left.length) (st1 := { st with sh := (CacheConc.set st.sh env k d).1 }) h1 key.1 rfl
      · exact key.2.1
      · simp at h
      · simp only [SameContent]; rw [new]
      · simp only [SameContent]; rw [new]
      · simp only [SameContent]; rw [new]
      · simp only [SameContent]; rw [new]
    · split at hc
      · simp only [cleanCells, ctimes, List.mem_append, List.mem_cons, Prod.mk.injEq, List.not_mem_nil, or_false, List.mem_map] at hc
        rcases hc with (h | h | ⟨rfl, _⟩ | ⟨rfl, _⟩) | ⟨_, _, _, h⟩
        · simp at h
        · simp at h
        · exact map_same (n := st.left.length) (st1 := { st with sh := (CacheConc.set st.sh env k d).1 }) h1 key.1 rfl
        · exact key.2.1
        · simp at h
      · simp at hc
  | setTTL k ttl =>
    have h1 : SameContent st st2 .items := hag .items false (by simp [Move.cells])
    have hi := same_items h1 (hag (.map st.left.length) false (by simp [Move.cells]))
    simp only [CacheConc.apply] at ha ⊢
    rw [hi]
    cases hid : st.sh.items.get k with
    | none =>
      simp only [hid, Option.some.injEq] at ha
      subst ha
      exact ⟨_, rfl, hp, ⟨[], by simp, by simp⟩, fun c hc => by simp [Move.cells, hid] at hc⟩
    | some id =>
      simp only [hid, Option.some.injEq] at ha
      subst ha
      refine ⟨_, rfl, hp, ⟨[], by simp, by simp⟩, fun c hc => ?_⟩
      simp only [Move.cells, hid, List.mem_append, List.mem_cons, Prod.mk.injEq, List.not_mem_nil, or_false, reduceCtorEq, and_false, false_or,
        Bool.true_eq_false, and_true] at hc
      subst hc
      have hc : SameContent st st2 (.ttl id) := hag (.ttl id) true (by simp [Move.cells, hid])
      simp only [SameContent] at hc ⊢
      simp only [modify, List.getElem?_modify]
      cases q1 : st.sh.heap[id]? <;> cases q2 : st2.sh.heap[id]? <;> simp_all
  | flush =>
    simp only [CacheConc.apply, Option.some.injEq] at ha ⊢
    subst ha
    have h1 : st2.left.length = st.left.length := hag .items true (by simp [Move.cells])
    refine ⟨_, rfl, hp, ⟨[], by simp, by simp⟩, fun c hc => ?_⟩
    simp only [Move.cells, List.mem_cons, Prod.mk.injEq, List.not_mem_nil, or_false, and_true] at hc
    subst hc
    simp [SameContent, h1]
  | setMaxitems m =>
    simp only [CacheConc.apply, Option.some.injEq] at ha ⊢
    subst ha
    exact ⟨_, rfl, hp, ⟨[], by simp, by simp⟩, fun c hc => by simp [Move.cells] at hc; subst hc; rfl⟩
  | setExpire m =>
    simp only [CacheConc.apply, Option.some.injEq] at ha ⊢
    subst ha
    exact ⟨_, rfl, hp, ⟨[], by simp, by simp⟩, fun c hc => by simp [Move.cells] at hc; subst hc; rfl⟩
  | setValidator m =>
    simp only [CacheConc.apply, Option.some.injEq] at ha ⊢
    subst ha
    exact ⟨_, rfl, hp, ⟨[], by simp, by simp⟩, fun c hc => by simp [Move.cells] at hc; subst hc; rfl⟩
  | del k =>
    simp only [CacheConc.apply, Option.some.injEq] at ha ⊢
    subst ha
    obtain ⟨k1, k2, k3⟩ := del_agree k hag
    refine ⟨_, rfl, hp, ⟨[], by simp, by simp⟩, fun c hc => ?_⟩
    simp only [Move.cells, delCells, List.mem_cons, Prod.mk.injEq, List.not_mem_nil, or_false, reduceCtorEq, and_false, false_or, and_true,
      Bool.true_eq_false] at hc
    rcases hc with rfl | rfl
    · exact map_same (st1 := { st with sh := del st.sh k }) k3 k1 rfl
    · exact k2
  | clean env q =>
    simp only [CacheConc.apply, Option.some.injEq] at ha ⊢
    subst ha
    obtain ⟨k1, k2, k4, k3⟩ := clean_agree env q hag
    refine ⟨_, rfl, hp, ⟨_, rfl, by rw [k4]⟩, fun c hc => ?_⟩
    simp only [Move.cells, cleanCells, ctimes, List.mem_append, List.mem_cons, Prod.mk.injEq, List.not_mem_nil, or_false, List.mem_map,
      reduceCtorEq, and_false, false_or, and_true, Bool.true_eq_false, Bool.false_eq_true, exists_false, or_false] at hc
    rcases hc with rfl | rfl
    · exact map_same (st1 := { st with sh := (mClean st.sh env q).1 }) k3 k1 rfl
    · exact k2
  | getStart t k =>
    have h1 : SameContent st st2 .items := hag .items false (by simp [Move.cells])
    have hi := same_items h1 (hag (.map st.left.length) false (by simp [Move.cells]))
    simp only [CacheConc.apply] at ha ⊢
    rw [hi, hp]
    split at ha
    · rename_i hq
      split at ha
      · simp only [Option.some.injEq] at ha
        subst ha
        exact ⟨_, rfl, rfl, ⟨[], by simp, by simp⟩, fun c hc => by simp [Move.cells] at hc⟩
      · simp only [Option.some.injEq] at ha
        subst ha
        exact ⟨_, rfl, rfl, ⟨_, rfl, rfl⟩, fun c hc => by simp [Move.cells] at hc⟩
    · cases ha
  | checkTTL t now =>
    simp only [CacheConc.apply] at ha ⊢
    rw [hp]
    split at ha
    · rename_i k id hq
      have c1 : SameContent st st2 (.ttl id) := hag (.ttl id) false (by simp [Move.cells, hq])
      have c2 : SameContent st st2 (.ctime id) := hag (.ctime id) false (by simp [Move.cells, hq])
      simp only [SameContent] at c1 c2
      split at ha
      · rename_i e he
        rw [he] at c1 c2
        cases q2 : st2.sh.heap[id]? with
        | none => rw [q2] at c1; cases c1
        | some e2 =>
          rw [q2] at c1 c2
          simp only [Option.map_some, Option.some.injEq] at c1 c2
          dsimp only
          rw [c1, c2]
          split at ha <;> (simp only [Option.some.injEq] at ha; subst ha)
          · rename_i hcond
            rw [if_pos hcond]
            exact ⟨_, rfl, rfl, ⟨_, rfl, rfl⟩, fun c hc => by simp [Move.cells, hq] at hc⟩
          · rename_i hcond
            rw [if_neg hcond]
            exact ⟨_, rfl, rfl, ⟨[], by simp, by simp⟩, fun c hc => by simp [Move.cells, hq] at hc⟩
      · cases ha
    · cases ha
  | checkVal t ok =>
    simp only [CacheConc.apply] at ha ⊢
    rw [hp]
    split at ha
    · rename_i k id hq
      have c1 : st2.sh.hasValidator = st.sh.hasValidator := hag .validator false (by simp [Move.cells, hq])
      rw [c1]
      split at ha <;> (simp only [Option.some.injEq] at ha; subst ha)
      · rename_i hcond
        rw [if_pos hcond]
        exact ⟨_, rfl, rfl, ⟨_, rfl, rfl⟩, fun c hc => by simp [Move.cells, hq] at hc⟩
      · rename_i hcond
        rw [if_neg hcond]
        exact ⟨_, rfl, rfl, ⟨[], by simp, by simp⟩, fun c hc => by simp [Move.cells, hq] at hc⟩
    · cases ha
  | checkExp t now =>
    simp only [CacheConc.apply] at ha ⊢
    rw [hp]
    split at ha
    · rename_i k id hq
      have c1 : st2.sh.expire = st.sh.expire := hag .expire false (by simp [Move.cells, hq])
      have c2 : SameContent st st2 (.ctime id) := hag (.ctime id) false (by simp [Move.cells, hq])
      simp only [SameContent] at c2
      split at ha
      · rename_i e he
        rw [he] at c2
        cases q2 : st2.sh.heap[id]? with
        | none => rw [q2] at c2; cases c2
        | some e2 =>
          rw [q2] at c2
          simp only [Option.map_some, Option.some.injEq] at c2
          dsimp only
          rw [c1, c2]
          split at ha <;> (simp only [Option.some.injEq] at ha; subst ha)
          · rename_i hcond
            rw [if_pos hcond]
            exact ⟨_, rfl, rfl, ⟨_, rfl, rfl⟩, fun c hc => by simp [Move.cells, hq] at hc⟩
          · rename_i hcond
            rw [if_neg hcond]
            exact ⟨_, rfl, rfl, ⟨[], by simp, by simp⟩, fun c hc => by simp [Move.cells, hq] at hc⟩
      · cases ha
    · cases ha
  | writeRtime t now =>
    simp only [CacheConc.apply] at ha ⊢
    rw [hp]
    split at ha
    · rename_i k id hq
      simp only [Option.some.injEq] at ha
      subst ha
      refine ⟨_, rfl, rfl, ⟨[], by simp, by simp⟩, fun c hc => ?_⟩
      simp only [Move.cells, hq, List.mem_cons, Prod.mk.injEq, List.not_mem_nil, or_false, and_true] at hc
      subst hc
      have hc : SameContent st st2 (.rtime id) := hag (.rtime id) true (by simp [Move.cells, hq])
      simp only [SameContent] at hc ⊢
      simp only [modify, List.getElem?_modify]
      cases q1 : st.sh.heap[id]? <;> cases q2 : st2.sh.heap[id]? <;> simp_all
    · cases ha
  | getEnd t =>
    simp only [CacheConc.apply] at ha ⊢
    rw [hp]
    split at ha
    · rename_i k id hq
      have c1 : st2.sh.pile = st.sh.pile := hag .pile true (by simp [Move.cells, hq])
      have c2 : SameContent st st2 (.data id) := hag (.data id) false (by simp [Move.cells, hq])
      simp only [SameContent] at c2
      split at ha
      · rename_i e he
        rw [he] at c2
        cases q2 : st2.sh.heap[id]? with
        | none => rw [q2] at c2; cases c2
        | some e2 =>
          rw [q2] at c2
          simp only [Option.map_some, Option.some.injEq] at c2
          simp only [Option.some.injEq] at ha
          subst ha
          dsimp only
          rw [c1, c2]
          refine ⟨_, rfl, rfl, ⟨_, rfl, rfl⟩, fun c hc => ?_⟩
          simp only [Move.cells, hq, List.mem_cons, Prod.mk.injEq, List.not_mem_nil, or_false, and_true, reduceCtorEq, and_false,
            Bool.true_eq_false] at hc
          subst hc
          rfl
      · cases ha
    · cases ha
  | getDrop t =>
    simp only [CacheConc.apply] at ha ⊢
    rw [hp]
    split at ha
    · rename_i k id hq
      simp only [Option.some.injEq] at ha
      subst ha
      obtain ⟨k1, k2, k3⟩ := del_agree k hag
      refine ⟨_, rfl, rfl, ⟨_, rfl, rfl⟩, fun c hc => ?_⟩
      simp only [Move.cells, delCells, List.mem_cons, Prod.mk.injEq, List.not_mem_nil, or_false, reduceCtorEq, and_false, false_or, and_true,
        Bool.true_eq_false] at hc
      rcases hc with rfl | rfl
      · exact map_same (st1 := { st with sh := del st.sh k }) k3 k1 rfl
      · exact k2
    · cases ha
  | verifyStart t env =>
    simp only [CacheConc.apply] at ha ⊢
    rw [hp]
    split at ha
    · rename_i hq
      simp only [Option.some.injEq] at ha
      subst ha
      obtain ⟨k1, k2, k4, k3⟩ := clean_agree env 0 hag
      refine ⟨_, rfl, by rw [k3], ⟨_, rfl, by rw [k4]⟩, fun c hc => ?_⟩
      simp only [Move.cells, cleanCells, ctimes, List.mem_append, List.mem_cons, Prod.mk.injEq, List.not_mem_nil, or_false, List.mem_map,
        reduceCtorEq, and_false, false_or, and_true, Bool.true_eq_false, Bool.false_eq_true, exists_false, or_false] at hc
      rcases hc with rfl | rfl
      · exact map_same (st1 := { st with sh := (mClean st.sh env 0).1 }) k3 k1 rfl
      · exact k2
    · cases ha
  | verifyPick t k ok =>
    have hv' := hv t k ok rfl
    simp only [CacheConc.apply] at ha ⊢
    rw [hp]
    split at ha
    · rename_i m hq
      have c1 : st2.sh.hasValidator = st.sh.hasValidator := hag .validator false (by simp [Move.cells, hq, hv'])
      have c2 : st2.left.length = st.left.length := hag .items false (by simp [Move.cells, hq, hv'])
      split at ha
      · rename_i hr
        have hm : ∃ j items, m ≤ j ∧ (maps st)[j]? = some items ∧ (AMap.get items k).isSome = true := by
          simp only [ranged, Bool.or_eq_true, List.any_eq_true] at hr
          rcases hr with hr | ⟨items, h1, h2⟩
          · exact ⟨st.left.length, st.sh.items, hsince t m (by rw [hq]; rfl), by simp [maps], hr⟩
          · obtain ⟨i, hi⟩ := List.mem_iff_getElem?.1 h1
            rw [List.getElem?_drop] at hi
            refine ⟨m + i, items, Nat.le_add_right _ _, ?_, h2⟩
            have : m + i < st.left.length := (List.getElem?_eq_some_iff.1 hi).1
            rw [maps, List.getElem?_append_left this]; exact hi
        obtain ⟨j, items, hj, h1, h2⟩ := hm
        obtain ⟨id, hid⟩ := Option.isSome_iff_exists.1 h2
        have c3 : SameContent st st2 (.map j) := hag (.map j) false (by
          simp only [Move.cells, hq, hv', if_true, List.mem_append, mem_pickCells]
          exact Or.inr ⟨j, items, id, hj, h1, hid, Or.inl rfl⟩)
        have h3 : (st2.left ++ [st2.sh.items])[j]? = some items := c3 items h1
        have hr2 : ranged st2 m k = true := by
          simp only [ranged, Bool.or_eq_true, List.any_eq_true]
          rcases Nat.lt_or_ge j st2.left.length with hlt | hge
          · rw [List.getElem?_append_left hlt] at h3
            refine Or.inr ⟨items, List.mem_iff_getElem?.2 ⟨j - m, ?_⟩, h2⟩
            rw [List.getElem?_drop, Nat.add_sub_cancel' hj]; exact h3
          · have : j = st2.left.length := by
              have := (List.getElem?_eq_some_iff.1 h3).1
              simp at this; omega
            subst this
            simp only [List.getElem?_concat_length, Option.some.injEq] at h3
            rw [h3]; exact Or.inl h2
        have nothing : ∀ c, (c, true) ∉ (Move.act (Act.verifyPick t k ok : Act D)).cells st := by
          intro c hc
          simp [Move.cells, hq, hv', mem_pickCells] at hc
        rw [if_pos hr2, c1]
        split at ha <;> (simp only [Option.some.injEq] at ha; subst ha)
        · rename_i hcond
          rw [if_pos hcond]
          exact ⟨_, rfl, rfl, ⟨[], by simp, by simp⟩, fun c hc => absurd hc (nothing c)⟩
        · rename_i hcond
          rw [if_neg hcond]
          exact ⟨_, rfl, hp, ⟨[], by simp, by simp⟩, fun c hc => absurd hc (nothing c)⟩
      · cases ha
    · cases ha
  | verifyDel t =>
    simp only [CacheConc.apply] at ha ⊢
    rw [hp]
    split at ha
    · rename_i k m hq
      simp only [Option.some.injEq] at ha
      subst ha
      obtain ⟨k1, k2, k3⟩ := del_agree k hag
      refine ⟨_, rfl, rfl, ⟨[], by simp, by simp⟩, fun c hc => ?_⟩
      simp only [Move.cells, delCells, List.mem_cons, Prod.mk.injEq, List.not_mem_nil, or_false, reduceCtorEq, and_false, false_or, and_true,
        Bool.true_eq_false] at hc
      rcases hc with rfl | rfl
      · exact map_same (st1 := { st with sh := del st.sh k }) k3 k1 rfl
      · exact k2
    · cases ha
  | verifyEnd t =>
    simp only [CacheConc.apply] at ha ⊢
    rw [hp]
    split at ha
    · rename_i m hq
      simp only [Option.some.injEq] at ha
      subst ha
      refine ⟨_, rfl, rfl, ⟨[], by simp, by simp⟩, fun c hc => ?_⟩
      simp only [Move.cells, hq] at hc
      split at hc <;> simp at hc
    · cases ha

/-! ## Considerate programs -/

/-- What considerate programs keep: a validator as at the start, never two goroutines in a Get of one key, no Verify with a validator. -/
structure Calm (b : Bool) (st : St D) : Prop where
  validator : st.sh.hasValidator = b
  apart : ∀ k t t', InGet k (st.pcs t) → InGet k (st.pcs t') → t = t'
  verify : ∀ t m, (st.pcs t).since = some m → b = false

theorem Calm.mono {b : Bool} {st st' : St D} (h : Calm b st) (hv : st'.sh.hasValidator = st.sh.hasValidator)
    (hp : ∀ k t, InGet k (st'.pcs t) → InGet k (st.pcs t)) (hs : ∀ t m, (st'.pcs t).since = some m → (st.pcs t).since = some m ∨ b = false) :
    Calm b st' :=
  ⟨hv.trans h.validator, fun k t t' h1 h2 => h.apart k t t' (hp k t h1) (hp k t' h2), fun t m hg => by
    rcases hs t m hg with h1 | h1
    · exact h.verify t m h1
    · exact h1⟩

theorem Calm.step {b : Bool} {st st' : St D} (h : Calm b st) (a : Act D) (hc : Considerate st (.act a)) (ha : apply st a = some st') :
    Calm b st' := by
  cases a with
  | setMaxitems m => cases hc
  | setExpire m => cases hc
  | setValidator m => cases hc
  | getStart t k =>
    simp only [Considerate] at hc
    simp only [CacheConc.apply] at ha
    (repeat' split at ha)
    · simp only [Option.some.injEq] at ha
      subst ha
      refine ⟨h.validator, ?_, ?_⟩
      · intro k' t1 t2 h1 h2
        simp only [upd] at h1 h2
        split at h1 <;> split at h2
        · simp_all
        · simp only [InGet] at h1; subst h1; exact absurd h2 (hc t2)
        · simp only [InGet] at h2; subst h2; exact absurd h1 (hc t1)
        · exact h.apart k' t1 t2 h1 h2
      · intro t' m hg
        simp only [upd] at hg
        split at hg
        · cases hg
        · exact h.verify t' m hg
    · simp only [Option.some.injEq] at ha
      subst ha; exact ⟨h.validator, h.apart, h.verify⟩
    · cases ha
  | _ =>
    simp only [CacheConc.apply] at ha
    (repeat' split at ha) <;> first
      | (cases ha; done)
      | (simp only [Option.some.injEq] at ha
         subst ha
         refine h.mono ?_ ?_ ?_
         · first | rfl | exact mClean_validator _ _ _ | exact set_validator _ _ _ _
         · first
             | exact fun k t h => h
             | (intro k' t' hg
                simp only [upd] at hg
                split at hg
                · simp_all [InGet]; done
                · exact hg)
         · first
             | exact fun t k h => Or.inl h
             | (intro t' m' hg
                simp only [upd] at hg
                split at hg
                · have := h.validator; simp_all [PC.since, Considerate]; done
                · exact Or.inl hg))

theorem considerate_inv {m e : Int} {v : Bool} {st : St D} (h : ConsiderateRun m e v st) : Calm v st ∧ Inv st ∧ ∃ f, Owned f st := by
  induction h with
  | start =>
    have hr : runActs (init m e : St D) [.setValidator v] = some (start m e v) := rfl
    refine ⟨⟨rfl, ?_, ?_⟩, (Inv.init m e).run _ hr, owned_run (owned_init m e) (Inv.init m e) _ hr⟩
    · intro k t t' h; cases h
    · intro t m h; cases h
  | step _ hc ha ih =>
    obtain ⟨h1, h2, f, h3⟩ := ih
    exact ⟨h1.step _ hc ha, h2.apply _ ha, h3.step h2 _ ha⟩

theorem InGet.of_good {k : Str} {id : Nat} {p : PC} (h : p = .good k id) : InGet k p := by subst h; rfl

/-- Considerate steps do not clash. -/
theorem Calm.no_clash {v : Bool} {st : St D} (h : Calm v st) {a b : Move D} (hab : Concurrent st a b) (ha : Considerate st a)
    (hb : Considerate st b) : ¬ Clash st a b := by
  intro hc
  have loops : ∀ here, Loops st here b → st.sh.hasValidator = true → False := by
    intro here hl hv
    have : ∃ t m, st.pcs t = .verifying m := by
      have hb' := hab.2.1
      cases b with
      | count => cases hl
      | act x =>
        cases x <;> first
          | exact False.elim hl
          | (rename_i t _ _
             simp only [Move.able, CacheConc.apply] at hb'
             (repeat' split at hb') <;> first | exact ⟨t, _, by assumption⟩ | (cases hb'; done))
          | (rename_i t
             simp only [Move.able, CacheConc.apply] at hb'
             (repeat' split at hb') <;> first | exact ⟨t, _, by assumption⟩ | (cases hb'; done))
    obtain ⟨t, m, hm⟩ := this
    have h1 := h.verify t m (by rw [hm]; rfl)
    have h2 := h.validator
    rw [h1, hv] at h2; cases h2
  cases hc with
  | @rtime t t' now now' k id h1 h2 =>
    have := h.apart k t t' (InGet.of_good h1) (InGet.of_good h2)
    subst this
    exact hab.2.2 t rfl rfl
  | @ttl t now d k id h1 h2 =>
    refine ha t ?_
    rw [h2]; rfl
  | loop hv h1 h2 => exact loops _ h2 hv
  | flush hv h2 => exact loops _ h2 hv
  | field g h1 h2 =>
    cases a with
    | count => cases g <;> cases h1
    | act x => cases g <;> cases x <;> first | exact False.elim h1 | exact False.elim ha

end Xcore.CacheConc
