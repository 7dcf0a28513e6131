import Verif.Spec.V1.CacheValidator
import Verif.Proof.V1.CacheSerial

/-! # Validators that use the cache of version 1, or panic: lemmas -/

namespace Xcore.V1.CacheValidator

open Xcore.Cache (Env Out)
open Xcore.V1.Cache (Entry Op removeFromPile)
open Xcore.V1.CacheConc (Shared)
open Spec

variable {D α β : Type}

theorem Ran.bind_ret (st : State D) (a : α) (f : State D → α → Ran D β) : (Ran.ret st a).bind f = f st a := rfl
theorem Ran.bind_stuck (f : State D → α → Ran D β) : (Ran.stuck : Ran D α).bind f = .stuck := rfl

theorem lock_held {st : State D} (h : st.sh.locked = true) : lock st = .stuck := by simp [lock, h]

/-! ## The calls on a cache whose mutex is free -/

theorem clean_free {st : State D} (h : st.sh.locked = false) (env : Env) (p : Int) :
    clean st env p = if (CacheConc.clean st.sh env p).2
      then .ret { st with sh := (CacheConc.clean st.sh env p).1 } ((st.sh.pile.length : Int) - (CacheConc.clean st.sh env p).1.pile.length)
      else .panic { st with sh := (CacheConc.clean st.sh env p).1 } := by
  obtain ⟨⟨m, e, v, items, heap, pile, l⟩, left, n, sets⟩ := st
  cases h
  unfold clean CacheConc.clean lock unlock
  simp only [Bool.false_eq_true, if_false, Ran.bind_ret]
  generalize (if e ≠ 0 then
      items.filter (fun p => match heap[p.2]? with
        | some x => !decide (x.ctime + e < env.clkAt p.1)
        | none => true)
    else items : AMap Nat) = its
  by_cases hc : ((its.length * p).tdiv 100).toNat ≤ pile.length
  · rw [if_pos hc, if_pos hc]; rfl
  · rw [if_neg hc, if_neg hc]; rfl

theorem del_free {st : State D} (h : st.sh.locked = false) (k : Str) : del st k = .ret { st with sh := CacheConc.del st.sh k } .unit := by
  obtain ⟨⟨m, e, v, items, heap, pile, l⟩, left, n, sets⟩ := st
  cases h; rfl

theorem count_free {st : State D} (h : st.sh.locked = false) : count st = .ret st (.num st.sh.items.length) := by
  obtain ⟨⟨m, e, v, items, heap, pile, l⟩, left, n, sets⟩ := st
  cases h; rfl

theorem flush_free {st : State D} (h : st.sh.locked = false) :
    flush st = .ret { st with sh := { st.sh with items := [] }, left := st.left ++ [st.sh.items] } .unit := by
  obtain ⟨⟨m, e, v, items, heap, pile, l⟩, left, n, sets⟩ := st
  cases h; rfl

theorem drop_free {st : State D} (h : st.sh.locked = false) (k : Str) :
    drop st k = .ret { st with sh := { st.sh with items := st.sh.items.del k } } () := by
  obtain ⟨⟨m, e, v, items, heap, pile, l⟩, left, n, sets⟩ := st
  cases h; rfl

theorem getDrop_free {st : State D} (h : st.sh.locked = false) (k : Str) :
    getDrop st k = .ret { st with sh := CacheConc.del st.sh k } (.got none true) := by
  rw [getDrop, del_free h]; rfl

theorem set_free {st : State D} (h : st.sh.locked = false) (env : Env) (k : Str) (d : D) :
    set st env k d =
      if 0 < st.sh.maxitems ∧ st.sh.maxitems ≤ (CacheConc.set st.sh env k d).items.length then
        (clean { st with sh := CacheConc.set st.sh env k d, sets := st.sets ++ [(k, d)] } env 10).bind fun st _ => .ret st .unit
      else .ret { st with sh := CacheConc.set st.sh env k d, sets := st.sets ++ [(k, d)] } .unit := by
  obtain ⟨⟨m, e, v, items, heap, pile, l⟩, left, n, sets⟩ := st
  cases h; rfl

/-- `Get` on a cache whose mutex is free. -/
theorem get_free (W : World D) (call : State D → Env → Op D → Ran D (Out D)) {st : State D} (h : st.sh.locked = false) (env : Env) (k : Str) :
    get W call st env k = match st.sh.items.get k with
      | none => .ret st (.got none false)
      | some id => match st.sh.heap[id]? with
        | none => .stuck
        | some e =>
          (if st.sh.hasValidator then ask W call st k e.ctime else .ret st true).bind fun st b =>
            if !b then getDrop st k
            else if st.sh.expire ≠ 0 ∧ e.ctime + st.sh.expire < env.clk 1 then getDrop st k
            else
              .ret { st with sh := { st.sh with
                heap := st.sh.heap.modify id (fun e => { e with rtime := env.clk 2 }), pile := removeFromPile st.sh.pile k ++ [k] } }
                (.got (some e.data) false) := by
  obtain ⟨⟨m, e, v, items, heap, pile, l⟩, left, n, sets⟩ := st
  cases h
  unfold get lock
  simp only [Bool.false_eq_true, if_false, Ran.bind_ret]
  cases items.get k <;> rfl

/-! ## The invariant -/

/-- Entries keep their data and creation time. -/
def HeapExt (h h' : List (Entry D)) : Prop := ∀ (id : Nat) (e : Entry D), h[id]? = some e → ∃ e', h'[id]? = some e' ∧ e'.data = e.data ∧ e'.ctime = e.ctime

theorem HeapExt.refl (h : List (Entry D)) : HeapExt h h := fun _ e he => ⟨e, he, rfl, rfl⟩

theorem HeapExt.trans {a b c : List (Entry D)} (h1 : HeapExt a b) (h2 : HeapExt b c) : HeapExt a c := by
  intro id e he
  obtain ⟨e1, h3, h4, h5⟩ := h1 id e he
  obtain ⟨e2, h6, h7, h8⟩ := h2 id e1 h3
  exact ⟨e2, h6, h7.trans h4, h8.trans h5⟩

theorem HeapExt.append (h : List (Entry D)) (e : Entry D) : HeapExt h (h ++ [e]) := by
  intro id x hx
  refine ⟨x, ?_, rfl, rfl⟩
  rw [List.getElem?_append_left (List.getElem?_eq_some_iff.1 hx).1]; exact hx

theorem HeapExt.touch (h : List (Entry D)) (id : Nat) (t : Int) : HeapExt h (h.modify id fun e => { e with rtime := t }) := by
  intro i e he
  rw [List.getElem?_modify, he]
  by_cases hi : id = i <;> simp [hi]

/-- Between calls, also after a panic that left the mutex locked. -/
structure Good (st : State D) : Prop where
  nodup : st.sh.items.Nodup
  sub : ∀ k id, st.sh.items.get k = some id → k ∈ st.sh.pile
  items : ∀ k id, st.sh.items.get k = some id → ∃ e, st.sh.heap[id]? = some e ∧ lastSet st.sets k = some e.data
  left : ∀ m ∈ st.left, ∀ k id, m.get k = some id → ∃ e, st.sh.heap[id]? = some e

theorem Good.new (m e : Int) : Good (new m e : State D) :=
  ⟨AMap.nodup_nil, by simp [CacheValidator.new], by simp [CacheValidator.new], by simp [CacheValidator.new]⟩

/-- What a piece of code does when it ends: it keeps the invariant and the data of the entries; if percentages are at most 100 (`g`), it does
not block and leaves the mutex free. -/
def Fine (g : Prop) (st : State D) : Ran D α → Prop
  | .ret st' _ => Good st' ∧ HeapExt st.sh.heap st'.sh.heap ∧ (g → st.sh.locked = false → st'.sh.locked = false)
  | .panic st' => Good st' ∧ HeapExt st.sh.heap st'.sh.heap ∧ (g → st.sh.locked = false → st'.sh.locked = false)
  | .stuck => g → st.sh.locked = true
  | .deep => True

variable {g : Prop}

theorem Fine.mono {st st1 : State D} (h : HeapExt st.sh.heap st1.sh.heap) (hl : g → st.sh.locked = false → st1.sh.locked = false) {r : Ran D α}
    (hr : Fine g st1 r) : Fine g st r := by
  cases r with
  | ret st' a => exact ⟨hr.1, h.trans hr.2.1, fun hg hf => hr.2.2 hg (hl hg hf)⟩
  | panic st' => exact ⟨hr.1, h.trans hr.2.1, fun hg hf => hr.2.2 hg (hl hg hf)⟩
  | stuck =>
    intro hg
    cases hf : st.sh.locked with
    | true => rfl
    | false => have := hr hg; rw [hl hg hf] at this; cases this
  | deep => trivial

theorem Fine.bind {st : State D} {r : Ran D α} {f : State D → α → Ran D β} (hr : Fine g st r)
    (hf : ∀ st' a, r = .ret st' a → Good st' → Fine g st' (f st' a)) : Fine g st (r.bind f) := by
  cases r with
  | ret st' a => exact Fine.mono hr.2.1 hr.2.2 (hf st' a rfl hr.1)
  | panic st' => exact hr
  | stuck => exact hr
  | deep => trivial

theorem Fine.here {st : State D} (h : Good st) (a : α) : Fine g st (.ret st a) := ⟨h, HeapExt.refl _, fun _ h => h⟩

/-- A call that needs the mutex. -/
theorem Fine.locking {st : State D} {r : Ran D α} (hheld : st.sh.locked = true → r = .stuck) (hfree : st.sh.locked = false → Fine g st r) :
    Fine g st r := by
  cases hf : st.sh.locked with
  | true => rw [hheld hf]; exact fun _ => hf
  | false => exact hfree hf

/-- Entries disappear or stay, nothing is stored. -/
theorem Good.shrink {st : State D} (h : Good st) {sh : Shared D} (hn : sh.items.Nodup) (hs : ∀ k id, sh.items.get k = some id → k ∈ sh.pile)
    (hh : HeapExt st.sh.heap sh.heap) (hi : ∀ k id, sh.items.get k = some id → st.sh.items.get k = some id) (n : Nat) :
    Good { st with sh, asked := n } := by
  refine ⟨hn, hs, ?_, ?_⟩
  · intro k id hk
    obtain ⟨e, h1, h2⟩ := h.items k id (hi k id hk)
    obtain ⟨e', h3, h4, _⟩ := hh id e h1
    exact ⟨e', h3, by rw [h4]; exact h2⟩
  · intro m hm k id hk
    obtain ⟨e, h1⟩ := h.left m hm k id hk
    obtain ⟨e', h3, _⟩ := hh id e h1
    exact ⟨e', h3⟩

theorem lastSet_append (sets : List (Str × D)) (k : Str) (d : D) (k' : Str) :
    lastSet (sets ++ [(k, d)]) k' = if k = k' then some d else lastSet sets k' := by
  unfold lastSet
  by_cases h : k = k' <;> simp [h]

theorem clean_flag {st : State D} (h : Good st) (env : Env) {p : Int} (hp : p ≤ 100) : (CacheConc.clean st.sh env p).2 = true := by
  have := (CacheConc.clean_kept h.nodup h.sub env p).2
  cases hx : (CacheConc.clean st.sh env p).2 with
  | true => rfl
  | false => have := this hx; omega

theorem clean_ok {st : State D} (h : Good st) (hf : st.sh.locked = false) (env : Env) {p : Int} (hp : p ≤ 100) :
    clean st env p = .ret { st with sh := (CacheConc.clean st.sh env p).1 }
      ((st.sh.pile.length : Int) - (CacheConc.clean st.sh env p).1.pile.length) := by
  rw [clean_free hf, if_pos (clean_flag h env hp)]

theorem clean_keeps (s : Shared D) (env : Env) (p : Int) (hok : (CacheConc.clean s env p).2 = true) :
    (CacheConc.clean s env p).1.locked = s.locked := by
  unfold CacheConc.clean at hok ⊢
  dsimp only at hok ⊢
  generalize (if s.expire ≠ 0 then
      s.items.filter (fun p => match s.heap[p.2]? with
        | some e => !decide (e.ctime + s.expire < env.clkAt p.1)
        | none => true)
    else s.items : AMap Nat) = its at hok ⊢
  by_cases h : ((its.length * p).tdiv 100).toNat ≤ s.pile.length
  · rw [if_pos h]
  · rw [if_neg h] at hok; cases hok

theorem Good.clean {st : State D} (h : Good st) (env : Env) (p : Int) : Good { st with sh := (CacheConc.clean st.sh env p).1 } := by
  obtain ⟨h1, h2, h3⟩ := CacheConc.clean_spec st.sh env p h.nodup
  exact h.shrink h1 (CacheConc.clean_kept h.nodup h.sub env p).1 (by rw [h2]; exact HeapExt.refl _) h3 _

theorem fine_clean {st : State D} (h : Good st) (env : Env) (p : Int) (hp : g → p ≤ 100) : Fine g st (clean st env p) := by
  refine Fine.locking (fun hl => by rw [clean, lock_held hl]; rfl) fun hf => ?_
  have hh : HeapExt st.sh.heap (CacheConc.clean st.sh env p).1.heap := by
    rw [(CacheConc.clean_spec st.sh env p h.nodup).2.1]; exact HeapExt.refl _
  rw [clean_free hf]
  split
  · rename_i hok
    exact ⟨h.clean env p, hh, fun _ hx => (clean_keeps st.sh env p hok).trans hx⟩
  · rename_i hok
    exact ⟨h.clean env p, hh, fun hg _ => absurd (clean_flag h env (hp hg)) hok⟩

theorem Good.set {st : State D} (h : Good st) (env : Env) (k : Str) (d : D) :
    Good { st with sh := CacheConc.set st.sh env k d, sets := st.sets ++ [(k, d)] } := by
  have hext : HeapExt st.sh.heap (CacheConc.set st.sh env k d).heap := HeapExt.append _ _
  refine ⟨AMap.nodup_set h.nodup k _, ?_, ?_, ?_⟩
  · intro k' id hk
    simp only [CacheConc.set, AMap.get_set] at hk
    simp only [CacheConc.set, List.mem_append, List.mem_singleton]
    split at hk
    · rename_i he; exact .inr he
    · rename_i hne
      left
      split
      · exact CacheConc.mem_remove (h.sub k' id hk) hne
      · exact h.sub k' id hk
  · intro k' id hk
    simp only [CacheConc.set, AMap.get_set] at hk
    split at hk
    · rename_i he
      subst he
      simp only [Option.some.injEq] at hk
      subst hk
      refine ⟨{ ctime := env.clk 0, rtime := env.clk 1, data := d }, ?_, ?_⟩
      · simp [CacheConc.set]
      · simp [lastSet_append]
    · rename_i hne
      obtain ⟨e, h3, h4⟩ := h.items k' id hk
      obtain ⟨e', h5, h6, _⟩ := hext id e h3
      refine ⟨e', h5, ?_⟩
      rw [lastSet_append, if_neg (Ne.symm hne), h6]; exact h4
  · intro m hm k' id hk
    obtain ⟨e, h1⟩ := h.left m hm k' id hk
    obtain ⟨e', h3, _⟩ := hext id e h1
    exact ⟨e', h3⟩

theorem fine_set {st : State D} (h : Good st) (env : Env) (k : Str) (d : D) : Fine g st (set st env k d) := by
  refine Fine.locking (fun hl => by rw [set, lock_held hl]; rfl) fun hf => ?_
  have hext : HeapExt st.sh.heap (CacheConc.set st.sh env k d).heap := HeapExt.append _ _
  rw [set_free hf]
  split
  · refine Fine.mono (st1 := { st with sh := CacheConc.set st.sh env k d, sets := st.sets ++ [(k, d)] }) hext (fun _ h => h) ?_
    exact (fine_clean (h.set env k d) env 10 (fun _ => by decide)).bind fun _ _ _ h1 => Fine.here h1 _
  · exact ⟨h.set env k d, hext, fun _ h => h⟩

theorem Good.del {st : State D} (h : Good st) (k : Str) : Good { st with sh := CacheConc.del st.sh k } := by
  refine h.shrink (AMap.nodup_del h.nodup k) (CacheConc.sub_del h.sub k) (HeapExt.refl _) ?_ _
  intro k' id hk
  simp only [CacheConc.del, AMap.get_del] at hk
  split at hk
  · cases hk
  · exact hk

theorem fine_del {st : State D} (h : Good st) (k : Str) : Fine g st (del st k) := by
  refine Fine.locking (fun hl => by rw [del, lock_held hl]; rfl) fun hf => ?_
  rw [del_free hf]
  exact ⟨h.del k, HeapExt.refl _, fun _ h => h⟩

theorem Good.drop {st : State D} (h : Good st) (k : Str) : Good { st with sh := { st.sh with items := st.sh.items.del k } } := by
  have hi : ∀ k' id, (st.sh.items.del k).get k' = some id → st.sh.items.get k' = some id := by
    intro k' id hk
    rw [AMap.get_del] at hk
    split at hk
    · cases hk
    · exact hk
  exact h.shrink (sh := { st.sh with items := st.sh.items.del k }) (AMap.nodup_del h.nodup k) (fun k' id hk => h.sub k' id (hi k' id hk))
    (HeapExt.refl _) hi _

theorem fine_drop {st : State D} (h : Good st) (k : Str) : Fine g st (drop st k) := by
  refine Fine.locking (fun hl => by rw [CacheValidator.drop, lock_held hl]; rfl) fun hf => ?_
  rw [drop_free hf]
  exact ⟨h.drop k, HeapExt.refl _, fun _ h => h⟩

theorem fine_getDrop {st : State D} (h : Good st) (k : Str) : Fine g st (getDrop st k) :=
  (fine_del h k).bind fun _ _ _ h1 => Fine.here h1 _

theorem fine_count {st : State D} (h : Good st) : Fine g st (count st) := by
  refine Fine.locking (fun hl => by rw [count, lock_held hl]; rfl) fun hf => ?_
  rw [count_free hf]
  exact Fine.here h _

theorem fine_flush {st : State D} (h : Good st) : Fine g st (flush st) := by
  refine Fine.locking (fun hl => by rw [flush, lock_held hl]; rfl) fun hf => ?_
  rw [flush_free hf]
  refine ⟨⟨AMap.nodup_nil, by simp, by simp, ?_⟩, HeapExt.refl _, fun _ h => h⟩
  intro m hm k id hk
  rcases List.mem_append.1 hm with h1 | h1
  · exact h.left m h1 k id hk
  · rw [List.mem_singleton.1 h1] at hk
    obtain ⟨e, h2, _⟩ := h.items k id hk
    exact ⟨e, h2⟩

/-! ## Calls of validators -/

/-- What is known about the calls that a validator makes. -/
def FineCalls (g : Prop) (call : State D → Env → Op D → Ran D (Out D)) : Prop :=
  ∀ st env op, Good st → (g → Mild op) → Fine g st (call st env op)

theorem fine_invoke {call : State D → Env → Op D → Ran D (Out D)} (hc : FineCalls g call) (s : Script D) (hs : g → Gentle s) :
    ∀ st, Good st → Fine g st (invoke call s st) := by
  induction s with
  | answer b => intro st h; exact Fine.here h _
  | panic => intro st h; exact ⟨h, HeapExt.refl _, fun _ h => h⟩
  | call env op next ih =>
    intro st h
    have h1 := hc st env op h (fun hg => (hs hg).1)
    unfold invoke
    cases hr : call st env op with
    | ret st1 o => rw [hr] at h1; exact Fine.mono h1.2.1 h1.2.2 (ih (some o) (fun hg => (hs hg).2 _) st1 h1.1)
    | panic st1 => rw [hr] at h1; exact Fine.mono h1.2.1 h1.2.2 (ih none (fun hg => (hs hg).2 _) st1 h1.1)
    | stuck => rw [hr] at h1; exact h1
    | deep => trivial

theorem Good.asked {st : State D} (h : Good st) (n : Nat) : Good { st with asked := n } := ⟨h.nodup, h.sub, h.items, h.left⟩

theorem fine_ask {W : World D} (hW : g → ∀ n k t, Gentle (W.validator n k t)) {call : State D → Env → Op D → Ran D (Out D)} (hc : FineCalls g call)
    {st : State D} (h : Good st) (k : Str) (t : Int) : Fine g st (ask W call st k t) := by
  unfold ask
  split
  · exact Fine.mono (st1 := { st with asked := st.asked + 1 }) (HeapExt.refl _) (fun _ h => h) (fine_invoke hc _ (fun hg => hW hg _ _ _) _ (h.asked _))
  · exact ⟨h, HeapExt.refl _, fun _ h => h⟩

theorem Good.touch {st : State D} (h : Good st) (id : Nat) (t : Int) (k : Str) :
    Good { st with sh := { st.sh with heap := st.sh.heap.modify id (fun e => { e with rtime := t }), pile := removeFromPile st.sh.pile k ++ [k] } } := by
  refine h.shrink (sh := { st.sh with
    heap := st.sh.heap.modify id (fun e => { e with rtime := t }), pile := removeFromPile st.sh.pile k ++ [k] }) h.nodup ?_
    (HeapExt.touch _ _ _) (fun _ _ h => h) _
  intro k' id' hk
  simp only [List.mem_append, List.mem_singleton]
  by_cases he : k' = k
  · exact .inr he
  · exact .inl (CacheConc.mem_remove (h.sub k' id' hk) he)

theorem fine_get {W : World D} (hW : g → ∀ n k t, Gentle (W.validator n k t)) {call : State D → Env → Op D → Ran D (Out D)} (hc : FineCalls g call)
    {st : State D} (h : Good st) (env : Env) (k : Str) : Fine g st (get W call st env k) := by
  refine Fine.locking (fun hl => by rw [get, lock_held hl]; rfl) fun hf => ?_
  rw [get_free W call hf]
  cases hk : st.sh.items.get k with
  | none => exact Fine.here h _
  | some id =>
    obtain ⟨e, he, _⟩ := h.items k id hk
    dsimp only
    rw [he]
    dsimp only
    refine Fine.bind ?_ ?_
    · split
      · exact fine_ask hW hc h k _
      · exact Fine.here h _
    · intro st1 b _ h1
      split
      · exact fine_getDrop h1 k
      · split
        · exact fine_getDrop h1 k
        · exact ⟨h1.touch _ _ _, HeapExt.touch _ _ _, fun _ h => h⟩

theorem Good.mapOf {st : State D} (h : Good st) {m : Nat} {k : Str} {id : Nat} (hk : (mapOf st m).get k = some id) :
    ∃ e, st.sh.heap[id]? = some e := by
  unfold CacheValidator.mapOf at hk
  cases hm : st.left[m]? with
  | none =>
    rw [hm] at hk
    obtain ⟨e, h1, _⟩ := h.items k id hk
    exact ⟨e, h1⟩
  | some mp =>
    rw [hm] at hk
    exact h.left mp (List.mem_of_getElem? hm) k id hk

theorem rangeNext_get {W : World D} {st : State D} {m : Nat} {todo done : List (Str × Nat)} {k : Str} {id : Nat}
    (h : rangeNext W st m todo done = some (k, id)) : (mapOf st m).get k = some id := by
  have hf : ∀ p, todo.find? (fun p => (mapOf st m).get p.1 == some p.2) = some p → (mapOf st m).get p.1 = some p.2 := by
    intro p hp
    have := List.find?_some hp
    simpa using this
  unfold rangeNext at h
  dsimp only at h
  split at h
  · exact hf _ h
  · split at h
    · rename_i hk
      split at h
      · exact hf _ h
      · cases h; exact hk
    · exact hf _ h

theorem fine_verifyLoop {W : World D} (hW : g → ∀ n k t, Gentle (W.validator n k t)) {call : State D → Env → Op D → Ran D (Out D)}
    (hc : FineCalls g call) (m : Nat) :
    ∀ (f : Nat) (todo done : List (Str × Nat)) (i : Int) (st : State D), Good st → Fine g st (verifyLoop W call m f todo done i st) := by
  intro f
  induction f with
  | zero => intro todo done i st h; trivial
  | succ f ih =>
    intro todo done i st h
    unfold verifyLoop
    cases hn : rangeNext W st m todo done with
    | none => exact ⟨h.asked _, HeapExt.refl _, fun _ h => h⟩
    | some p =>
      obtain ⟨k, id⟩ := p
      obtain ⟨e, he⟩ := h.mapOf (rangeNext_get hn)
      dsimp only
      rw [he]
      dsimp only
      refine Fine.bind (Fine.mono (st1 := { st with asked := st.asked + 1 }) (HeapExt.refl _) (fun _ h => h) (fine_ask hW hc (h.asked _) k _)) ?_
      intro st1 b _ h1
      split
      · exact (fine_drop h1 k).bind fun st2 _ _ h2 => ih _ _ _ _ h2
      · exact ih _ _ _ _ h1

theorem fine_verify {W : World D} (hW : g → ∀ n k t, Gentle (W.validator n k t)) {call : State D → Env → Op D → Ran D (Out D)}
    (hc : FineCalls g call) (f : Nat) {st : State D} (h : Good st) (env : Env) : Fine g st (verify W call f st env) := by
  unfold verify
  refine (fine_clean h env 0 (fun _ => by decide)).bind ?_
  intro st1 i _ h1
  split
  · exact fine_verifyLoop hW hc _ f _ _ _ _ h1
  · exact Fine.here h1 _

theorem fine_exec {W : World D} (hW : g → ∀ n k t, Gentle (W.validator n k t)) : ∀ (f : Nat), FineCalls g (exec W f) := by
  intro f
  induction f with
  | zero => intro st env op h _; trivial
  | succ f ih =>
    intro st env op h hm
    cases op with
    | set k d => exact fine_set h env k d
    | get k => exact fine_get hW ih h env k
    | del k => exact fine_del h k
    | count => exact fine_count h
    | clean p => exact (fine_clean h env p hm).bind fun st1 _ _ h1 => Fine.here h1 _
    | verify => exact fine_verify hW ih f h env
    | flush => exact fine_flush h
    | setMaxitems m => exact ⟨⟨h.nodup, h.sub, h.items, h.left⟩, HeapExt.refl _, fun _ h => h⟩
    | setExpire m => exact ⟨⟨h.nodup, h.sub, h.items, h.left⟩, HeapExt.refl _, fun _ h => h⟩
    | setValidator m => exact ⟨⟨h.nodup, h.sub, h.items, h.left⟩, HeapExt.refl _, fun _ h => h⟩

theorem fine_run {W : World D} (hW : g → ∀ n k t, Gentle (W.validator n k t)) (f : Nat) : ∀ (h : List (Env × Op D)) (st : State D), Good st →
    (g → ∀ c ∈ h, Mild c.2) → Fine g st (run W f st h) := by
  intro h
  induction h with
  | nil => intro st hg _; exact Fine.here hg _
  | cons c h ih =>
    intro st hg hm
    obtain ⟨env, op⟩ := c
    have h1 := fine_exec hW f st env op hg (fun hx => hm hx _ (List.mem_cons_self ..))
    have hm' : g → ∀ c ∈ h, Mild c.2 := fun hx c hc => hm hx c (List.mem_cons_of_mem _ hc)
    unfold run
    cases hr : exec W f st env op with
    | ret st1 o =>
      rw [hr] at h1
      exact Fine.mono h1.2.1 h1.2.2 ((ih st1 h1.1 hm').bind fun st2 _ _ h2 => Fine.here h2 _)
    | panic st1 =>
      rw [hr] at h1
      exact Fine.mono h1.2.1 h1.2.2 ((ih st1 h1.1 hm').bind fun st2 _ _ h2 => Fine.here h2 _)
    | stuck => rw [hr] at h1; exact h1
    | deep => trivial

theorem fineCalls_any (W : World D) (f : Nat) : FineCalls False (exec W f) := fine_exec (fun h => h.elim) f

theorem begun_good {W : World D} {st : State D} (h : Begun W st) : Good st := by
  obtain ⟨m, e, hist, f, outs, hr⟩ := h
  have := fine_run (g := False) (W := W) (fun h => h.elim) f hist (new m e) (Good.new m e) (fun h => h.elim)
  rw [hr] at this
  exact this.1

/-! ## The number of steps does not matter -/

/-- The second is the first, unless the first takes too many steps. -/
def Le (r r' : Ran D α) : Prop := r = .deep ∨ r = r'

theorem Le.refl (r : Ran D α) : Le r r := .inr rfl

theorem Le.bind {r r' : Ran D α} {f f' : State D → α → Ran D β} (h : Le r r') (hf : ∀ st a, Le (f st a) (f' st a)) : Le (r.bind f) (r'.bind f') := by
  rcases h with h | h
  · subst h; exact .inl rfl
  · subst h
    cases r with
    | ret st a => exact hf st a
    | panic st => exact .inr rfl
    | stuck => exact .inr rfl
    | deep => exact .inr rfl

/-- Calls with more steps. -/
def LeCalls (call call' : State D → Env → Op D → Ran D (Out D)) : Prop := ∀ st env op, Le (call st env op) (call' st env op)

theorem le_invoke {call call' : State D → Env → Op D → Ran D (Out D)} (h : LeCalls call call') (s : Script D) :
    ∀ st, Le (invoke call s st) (invoke call' s st) := by
  induction s with
  | answer b => intro st; exact .inr rfl
  | panic => intro st; exact .inr rfl
  | call env op next ih =>
    intro st
    unfold invoke
    rcases h st env op with h1 | h1
    · rw [h1]; exact .inl rfl
    · rw [← h1]
      cases call st env op with
      | ret st1 o => exact ih _ _
      | panic st1 => exact ih _ _
      | stuck => exact .inr rfl
      | deep => exact .inr rfl

theorem le_ask (W : World D) {call call' : State D → Env → Op D → Ran D (Out D)} (h : LeCalls call call') (st : State D) (k : Str) (t : Int) :
    Le (ask W call st k t) (ask W call' st k t) := by
  unfold ask
  split
  · exact le_invoke h _ _
  · exact .inr rfl

theorem le_get (W : World D) {call call' : State D → Env → Op D → Ran D (Out D)} (h : LeCalls call call') (st : State D) (env : Env) (k : Str) :
    Le (get W call st env k) (get W call' st env k) := by
  unfold get
  refine (Le.refl _).bind ?_
  intro st1 _
  cases st1.sh.items.get k with
  | none => exact .inr rfl
  | some id =>
    refine (Le.refl _).bind ?_
    intro st2 _
    cases st2.sh.heap[id]? with
    | none => exact .inr rfl
    | some e =>
      refine Le.bind ?_ fun _ _ => .inr rfl
      split
      · exact le_ask W h _ _ _
      · exact .inr rfl

theorem le_verifyLoop (W : World D) {call call' : State D → Env → Op D → Ran D (Out D)} (h : LeCalls call call') (m : Nat) :
    ∀ (f : Nat) (todo done : List (Str × Nat)) (i : Int) (st : State D),
      Le (verifyLoop W call m f todo done i st) (verifyLoop W call' m (f + 1) todo done i st) := by
  intro f
  induction f with
  | zero => intro todo done i st; exact .inl rfl
  | succ f ih =>
    intro todo done i st
    rw [verifyLoop, verifyLoop]
    cases rangeNext W st m todo done with
    | none => exact .inr rfl
    | some p =>
      obtain ⟨k, id⟩ := p
      dsimp only
      cases st.sh.heap[id]? with
      | none => exact .inr rfl
      | some e =>
        dsimp only
        refine (le_ask W h _ _ _).bind ?_
        intro st1 b
        split
        · exact (Le.refl _).bind fun _ _ => ih _ _ _ _
        · exact ih _ _ _ _

theorem le_exec (W : World D) : ∀ f, LeCalls (exec W f) (exec W (f + 1)) := by
  intro f
  induction f with
  | zero => intro st env op; exact .inl rfl
  | succ f ih =>
    intro st env op
    cases op with
    | get k => exact le_get W ih st env k
    | verify =>
      refine (Le.refl (clean st env 0)).bind ?_
      intro st1 i
      split
      · exact le_verifyLoop W ih _ _ _ _ _ _
      · exact .inr rfl
    | _ => exact .inr rfl

theorem le_exec_add (W : World D) (f n : Nat) : LeCalls (exec W f) (exec W (f + n)) := by
  intro st env op
  induction n with
  | zero => exact .inr rfl
  | succ n ih =>
    rcases ih with h | h
    · exact .inl h
    · rw [h]; exact le_exec W (f + n) st env op

theorem le_run (W : World D) (f n : Nat) : ∀ (h : List (Env × Op D)) (st : State D), Le (run W f st h) (run W (f + n) st h) := by
  intro h
  induction h with
  | nil => intro st; exact .inr rfl
  | cons c h ih =>
    intro st
    obtain ⟨env, op⟩ := c
    unfold run
    rcases le_exec_add W f n st env op with h1 | h1
    · rw [h1]; exact .inl rfl
    · rw [← h1]
      cases exec W f st env op with
      | ret st1 o => exact (ih st1).bind fun _ _ => .inr rfl
      | panic st1 => exact (ih st1).bind fun _ _ => .inr rfl
      | stuck => exact .inr rfl
      | deep => exact .inr rfl

/-! ## When nothing panics -/

/-- No panic, and an installed validator stays installed. -/
def Tame (st : State D) : Ran D α → Prop
  | .ret st' _ => st.sh.hasValidator = true → st'.sh.hasValidator = true
  | .panic _ => False
  | _ => True

theorem Tame.bind {st : State D} {r : Ran D α} {f : State D → α → Ran D β} (hf : Fine g st r) (hr : Tame st r)
    (h : ∀ st' a, Good st' → (st.sh.hasValidator = true → st'.sh.hasValidator = true) → Tame st' (f st' a)) : Tame st (r.bind f) := by
  cases r with
  | ret st1 a =>
    have h1 := h st1 a hf.1 hr
    simp only [Ran.bind]
    cases hx : f st1 a with
    | ret st2 b => rw [hx] at h1; exact fun hv => h1 (hr hv)
    | panic st2 => rw [hx] at h1; exact h1
    | stuck => trivial
    | deep => trivial
  | panic st1 => exact hr
  | stuck => trivial
  | deep => trivial

theorem Tame.locking {st : State D} {r : Ran D α} (hheld : st.sh.locked = true → r = .stuck) (hfree : st.sh.locked = false → Tame st r) :
    Tame st r := by
  cases hf : st.sh.locked with
  | true => rw [hheld hf]; trivial
  | false => exact hfree hf

theorem clean_validator (s : Shared D) (env : Env) (p : Int) : (CacheConc.clean s env p).1.hasValidator = s.hasValidator := by
  unfold CacheConc.clean
  dsimp only
  generalize (if s.expire ≠ 0 then
      s.items.filter (fun p => match s.heap[p.2]? with
        | some e => !decide (e.ctime + s.expire < env.clkAt p.1)
        | none => true)
    else s.items : AMap Nat) = its
  split <;> rfl

theorem tame_clean {st : State D} (h : Good st) (env : Env) {p : Int} (hp : p ≤ 100) : Tame st (clean st env p) := by
  refine Tame.locking (fun hl => by rw [clean, lock_held hl]; rfl) fun hf => ?_
  rw [clean_ok h hf env hp]
  exact fun hv => (clean_validator _ _ _).trans hv

theorem tame_set {st : State D} (h : Good st) (env : Env) (k : Str) (d : D) : Tame st (set st env k d) := by
  refine Tame.locking (fun hl => by rw [set, lock_held hl]; rfl) fun hf => ?_
  rw [set_free hf]
  split
  · have h1 := tame_clean (h.set env k d) env (p := 10) (by decide)
    have h2 := fine_clean (g := False) (h.set env k d) env 10 (fun h => h.elim)
    exact Tame.bind (st := { st with sh := CacheConc.set st.sh env k d, sets := st.sets ++ [(k, d)] }) h2 h1 fun _ _ _ _ => id
  · exact id

theorem tame_del {st : State D} (k : Str) : Tame st (del st k) := by
  refine Tame.locking (fun hl => by rw [del, lock_held hl]; rfl) fun hf => ?_
  rw [del_free hf]; exact id

theorem tame_drop {st : State D} (k : Str) : Tame st (drop st k) := by
  refine Tame.locking (fun hl => by rw [CacheValidator.drop, lock_held hl]; rfl) fun hf => ?_
  rw [drop_free hf]; exact id

theorem tame_getDrop {st : State D} (h : Good st) (k : Str) : Tame st (getDrop st k) :=
  Tame.bind (fine_del (g := False) h k) (tame_del k) fun _ _ _ _ => id

/-- What is known about the calls that calm validators make. -/
def TameCalls (call : State D → Env → Op D → Ran D (Out D)) : Prop :=
  ∀ st env op, Good st → Mild op → op ≠ .setValidator false → Tame st (call st env op)

theorem tame_invoke {call : State D → Env → Op D → Ran D (Out D)} (hc : FineCalls False call) (ht : TameCalls call) (s : Script D) (hs : Calm s) :
    ∀ st, Good st → Tame st (invoke call s st) := by
  induction s with
  | answer b => intro st _; exact id
  | panic => exact hs.elim
  | call env op next ih =>
    intro st h
    have h1 := hc st env op h (fun h => h.elim)
    have h2 := ht st env op h hs.1 hs.2.1
    unfold invoke
    cases hr : call st env op with
    | ret st1 o =>
      rw [hr] at h1 h2
      have h3 := ih (some o) (hs.2.2 _) st1 h1.1
      dsimp only
      cases hx : invoke call (next (some o)) st1 with
      | ret st2 b => rw [hx] at h3; exact fun hv => h3 (h2 hv)
      | panic st2 => rw [hx] at h3; exact h3
      | stuck => trivial
      | deep => trivial
    | panic st1 => rw [hr] at h2; exact h2.elim
    | stuck => trivial
    | deep => trivial

theorem tame_ask {W : World D} (hW : ∀ n k t, Calm (W.validator n k t)) {call : State D → Env → Op D → Ran D (Out D)} (hc : FineCalls False call)
    (ht : TameCalls call) {st : State D} (h : Good st) (hv : st.sh.hasValidator = true) (k : Str) (t : Int) : Tame st (ask W call st k t) := by
  unfold ask
  rw [if_pos hv]
  exact tame_invoke hc ht _ (hW _ _ _) _ (h.asked _)

theorem tame_get {W : World D} (hW : ∀ n k t, Calm (W.validator n k t)) {call : State D → Env → Op D → Ran D (Out D)} (hc : FineCalls False call)
    (ht : TameCalls call) {st : State D} (h : Good st) (env : Env) (k : Str) : Tame st (get W call st env k) := by
  refine Tame.locking (fun hl => by rw [get, lock_held hl]; rfl) fun hf => ?_
  rw [get_free W call hf]
  cases hk : st.sh.items.get k with
  | none => exact id
  | some id' =>
    obtain ⟨e, he, _⟩ := h.items k id' hk
    dsimp only
    rw [he]
    dsimp only
    refine Tame.bind (g := False) ?_ ?_ ?_
    · split
      · exact fine_ask (fun h => h.elim) hc h k _
      · exact Fine.here h _
    · split
      · rename_i hv; exact tame_ask hW hc ht h hv k _
      · exact id
    · intro st1 b h1 _
      split
      · exact tame_getDrop h1 k
      · split
        · exact tame_getDrop h1 k
        · exact id

theorem tame_verifyLoop {W : World D} (hW : ∀ n k t, Calm (W.validator n k t)) {call : State D → Env → Op D → Ran D (Out D)} (hc : FineCalls False call)
    (ht : TameCalls call) (m : Nat) : ∀ (f : Nat) (todo done : List (Str × Nat)) (i : Int) (st : State D), Good st → st.sh.hasValidator = true →
      Tame st (verifyLoop W call m f todo done i st) := by
  intro f
  induction f with
  | zero => intro todo done i st h hv; trivial
  | succ f ih =>
    intro todo done i st h hv
    unfold verifyLoop
    cases hn : rangeNext W st m todo done with
    | none => exact id
    | some p =>
      obtain ⟨k, id'⟩ := p
      obtain ⟨e, he⟩ := h.mapOf (rangeNext_get hn)
      dsimp only
      rw [he]
      dsimp only
      have h2 : Tame st ((ask W call { st with asked := st.asked + 1 } k e.ctime)) :=
        tame_ask hW hc ht (h.asked (st.asked + 1)) hv k _
      refine Tame.bind (Fine.mono (g := False) (st1 := { st with asked := st.asked + 1 }) (HeapExt.refl _) (fun h => h.elim)
        (fine_ask (fun h => h.elim) hc (h.asked _) k _)) h2 ?_
      intro st1 b h1 hv1
      split
      · refine Tame.bind (fine_drop (g := False) h1 k) (tame_drop k) ?_
        intro st2 _ h3 hv3
        exact ih _ _ _ _ h3 (hv3 (hv1 hv))
      · exact ih _ _ _ _ h1 (hv1 hv)

theorem tame_exec {W : World D} (hW : ∀ n k t, Calm (W.validator n k t)) : ∀ f, TameCalls (exec W f) := by
  intro f
  induction f with
  | zero => intro st env op _ _ _; trivial
  | succ f ih =>
    intro st env op h hm hu
    cases op with
    | set k d => exact tame_set h env k d
    | get k => exact tame_get hW (fineCalls_any W f) ih h env k
    | del k => exact tame_del k
    | count =>
      refine Tame.locking (fun hl => by unfold exec; dsimp only; rw [count, lock_held hl]; rfl) fun hf => ?_
      unfold exec; dsimp only; rw [count_free hf]; exact id
    | clean p => exact Tame.bind (r := clean st env p) (fine_clean (g := False) h env p (fun h => h.elim)) (tame_clean h env hm) fun _ _ _ _ => id
    | verify =>
      refine Tame.bind (r := clean st env 0) (fine_clean (g := False) h env 0 (fun h => h.elim)) (tame_clean h env (by decide)) ?_
      intro st1 i h1 _
      split
      · rename_i hv; exact tame_verifyLoop hW (fineCalls_any W f) ih _ _ _ _ _ _ h1 hv
      · exact id
    | flush =>
      refine Tame.locking (fun hl => by unfold exec; dsimp only; rw [flush, lock_held hl]; rfl) fun hf => ?_
      unfold exec; dsimp only; rw [flush_free hf]; exact id
    | setMaxitems m => exact id
    | setExpire m => exact id
    | setValidator b =>
      cases b with
      | true => exact fun _ => rfl
      | false => exact (hu rfl).elim

theorem exec_no_panic {W : World D} (hW : ∀ n k t, Calm (W.validator n k t)) {f : Nat} {st st' : State D} (h : Good st) {env : Env} {op : Op D}
    (hm : Mild op) : exec W f st env op ≠ .panic st' := by
  by_cases hu : op = .setValidator false
  · subst hu
    cases f <;> nofun
  · intro hr
    have := tame_exec hW f st env op h hm hu
    rw [hr] at this
    exact this

theorem run_no_panic {W : World D} (hW : ∀ n k t, Calm (W.validator n k t)) {f : Nat} : ∀ (h : List (Env × Op D)) (st st' : State D)
    (outs : List (Option (Out D))), Good st → (∀ c ∈ h, Mild c.2) → run W f st h = .ret st' outs → none ∉ outs := by
  intro h
  induction h with
  | nil => intro st st' outs _ _ hr; cases hr; simp
  | cons c h ih =>
    intro st st' outs hg hm hr
    obtain ⟨env, op⟩ := c
    unfold run at hr
    have h1 := fineCalls_any W f st env op hg (fun h => h.elim)
    cases hx : exec W f st env op with
    | ret st1 o =>
      rw [hx] at hr h1
      dsimp only at hr
      cases hy : run W f st1 h with
      | ret st2 outs2 =>
        have := ih st1 st2 outs2 h1.1 (fun c hc => hm c (List.mem_cons_of_mem _ hc)) hy
        rw [hy] at hr
        cases hr
        simp [this]
      | _ => rw [hy] at hr; cases hr
    | panic st1 => exact (exec_no_panic hW hg (hm _ (List.mem_cons_self ..)) hx).elim
    | stuck => rw [hx] at hr; cases hr
    | deep => rw [hx] at hr; cases hr

/-! ## What Get answers -/

theorem getDrop_none {st st' : State D} {k : Str} {d : D} {b : Bool} : getDrop st k ≠ .ret st' (.got (some d) b) := by
  intro hr
  cases hf : st.sh.locked with
  | true => rw [getDrop, del, lock_held hf] at hr; cases hr
  | false => rw [getDrop_free hf] at hr; cases hr

theorem get_data {W : World D} {call : State D → Env → Op D → Ran D (Out D)} {st st' : State D} (h : Good st) {env : Env} {k : Str}
    {d : D} {b : Bool} (hr : get W call st env k = .ret st' (.got (some d) b)) : b = false ∧ lastSet st.sets k = some d := by
  cases hf : st.sh.locked with
  | true => rw [get, lock_held hf] at hr; cases hr
  | false =>
    rw [get_free W call hf] at hr
    cases hk : st.sh.items.get k with
    | none => rw [hk] at hr; cases hr
    | some id =>
      obtain ⟨e, he, hl⟩ := h.items k id hk
      rw [hk] at hr
      dsimp only at hr
      rw [he] at hr
      dsimp only at hr
      generalize (if st.sh.hasValidator then ask W call st k e.ctime else .ret st true) = r at hr
      cases r with
      | ret st1 b1 =>
        rw [Ran.bind_ret] at hr
        split at hr
        · exact (getDrop_none hr).elim
        · split at hr
          · exact (getDrop_none hr).elim
          · cases hr
            exact ⟨rfl, hl⟩
      | _ => cases hr

end Xcore.V1.CacheValidator
