import Verif.Spec.CacheValidator
import Verif.Proof.CacheSerial

/-! # Validators that use the cache, or panic: lemmas -/

namespace Xcore.CacheValidator

open Cache CacheConc Spec

variable {D α β : Type}

theorem Ran.bind_ret (st : State D) (a : α) (f : State D → α → Ran D β) : (Ran.ret st a).bind f = f st a := rfl

/-! ## The calls on a cache whose mutex is free -/

theorem set_free {st : State D} (h : st.mutex = .free) (env : Env) (k : Str) (d : D) :
    set st env k d = if (CacheConc.set st.sh env k d).2
      then .ret { st with sh := (CacheConc.set st.sh env k d).1, sets := st.sets ++ [(k, d)] } .unit
      else .panic { st with sh := (CacheConc.set st.sh env k d).1, sets := st.sets ++ [(k, d)] } := by
  obtain ⟨sh, mu, left, n, sets⟩ := st
  cases h
  cases hr : (CacheConc.set sh env k d).2 <;> simp [set, lockW, deferW, Ran.bind, unlockW, hr]

theorem setTTL_free {st : State D} (h : st.mutex = .free) (k : Str) (ttl : Int) :
    setTTL st k ttl = .ret (match st.sh.items.get k with
      | some id => { st with sh := { st.sh with heap := modify st.sh.heap id (fun e => { e with ttl }) } }
      | none => st) .unit := by
  obtain ⟨sh, mu, left, n, sets⟩ := st
  cases h
  cases hr : sh.items.get k <;> simp [setTTL, lockW, deferW, Ran.bind, unlockW, hr]

theorem del_free {st : State D} (h : st.mutex = .free) (k : Str) : del st k = .ret { st with sh := CacheConc.del st.sh k } .unit := by
  obtain ⟨sh, mu, left, n, sets⟩ := st
  cases h
  rfl

theorem count_free {st : State D} (h : st.mutex = .free) : count st = .ret st (.num st.sh.items.length) := by
  obtain ⟨sh, mu, left, n, sets⟩ := st
  cases h
  rfl

theorem mGet_free {st : State D} (h : st.mutex = .free) (k : Str) : mGet st k = .ret st (st.sh.items.get k) := by
  obtain ⟨sh, mu, left, n, sets⟩ := st
  cases h
  rfl

theorem flush_free {st : State D} (h : st.mutex = .free) :
    flush st = .ret { st with sh := { st.sh with items := [] }, left := st.left ++ [st.sh.items] } .unit := by
  obtain ⟨sh, mu, left, n, sets⟩ := st
  cases h
  rfl

theorem clean_free {st : State D} (h : st.mutex = .free) (env : Env) (p : Int) :
    clean st env p = if (CacheConc.mClean st.sh env p).2
      then .ret { st with sh := (CacheConc.mClean st.sh env p).1 }
        ((st.sh.pile.length : Int) - (CacheConc.mClean st.sh env p).1.pile.length)
      else .panic { st with sh := (CacheConc.mClean st.sh env p).1 } := by
  obtain ⟨sh, mu, left, n, sets⟩ := st
  cases h
  cases hr : (CacheConc.mClean sh env p).2 <;> simp [clean, lockW, deferW, Ran.bind, unlockW, hr]

theorem getDrop_free {st : State D} (h : st.mutex = .free) (k : Str) :
    getDrop st k = .ret { st with sh := CacheConc.del st.sh k } (.got none true) := by
  rw [getDrop, del_free h]; rfl

/-! ## The invariant -/

/-- Between calls. -/
structure Good (st : State D) : Prop where
  free : st.mutex = .free
  tracked : Tracked st.sh
  items : ∀ k id, st.sh.items.get k = some id → ∃ e, st.sh.heap[id]? = some e ∧ lastSet st.sets k = some e.data
  left : ∀ m ∈ st.left, ∀ k id, m.get k = some id → ∃ e, st.sh.heap[id]? = some e

theorem Good.new (m e : Int) : Good (new m e : State D) :=
  ⟨rfl, ⟨AMap.nodup_nil, by simp [CacheValidator.new]⟩, by simp [CacheValidator.new], by simp [CacheValidator.new]⟩

/-- What a piece of code does when it ends: it keeps the invariant and the data of the entries. -/
def Fine (st : State D) : Ran D α → Prop
  | .ret st' _ => Good st' ∧ HeapExt st.sh.heap st'.sh.heap
  | .panic st' => Good st' ∧ HeapExt st.sh.heap st'.sh.heap
  | .stuck => False
  | .deep => True

theorem heapExt_trans {a b c : List (Entry D)} (h1 : HeapExt a b) (h2 : HeapExt b c) : HeapExt a c := by
  intro id e he
  obtain ⟨e1, h3, h4, h5⟩ := h1 id e he
  obtain ⟨e2, h6, h7, h8⟩ := h2 id e1 h3
  exact ⟨e2, h6, h7.trans h4, h8.trans h5⟩

theorem Fine.mono {st st1 : State D} (h : HeapExt st.sh.heap st1.sh.heap) {r : Ran D α} (hr : Fine st1 r) : Fine st r := by
  cases r with
  | ret st' a => exact ⟨hr.1, heapExt_trans h hr.2⟩
  | panic st' => exact ⟨hr.1, heapExt_trans h hr.2⟩
  | stuck => exact hr
  | deep => trivial

theorem Fine.bind {st : State D} {r : Ran D α} {f : State D → α → Ran D β} (hr : Fine st r)
    (hf : ∀ st' a, r = .ret st' a → Good st' → HeapExt st.sh.heap st'.sh.heap → Fine st' (f st' a)) : Fine st (r.bind f) := by
  cases r with
  | ret st' a => exact Fine.mono hr.2 (hf st' a rfl hr.1 hr.2)
  | panic st' => exact hr
  | stuck => exact hr
  | deep => trivial

/-- Entries disappear or stay, nothing is stored. -/
theorem Good.shrink {st : State D} (h : Good st) {sh : Shared D} (ht : Tracked sh) (hh : HeapExt st.sh.heap sh.heap)
    (hi : ∀ k id, sh.items.get k = some id → st.sh.items.get k = some id) (n : Nat) : Good { st with sh, asked := n } := by
  refine ⟨h.free, ht, ?_, ?_⟩
  · intro k id hk
    obtain ⟨e, h1, h2⟩ := h.items k id (hi k id hk)
    obtain ⟨e', h3, h4, _⟩ := hh id e h1
    exact ⟨e', h3, by rw [h4]; exact h2⟩
  · intro m hm k id hk
    obtain ⟨e, h1⟩ := h.left m hm k id hk
    obtain ⟨e', h3, _⟩ := hh id e h1
    exact ⟨e', h3⟩

theorem lastSet_append (sets : List (Str × D)) (k : Str) (d : D) (k' : Str) :
    lastSet (sets ++ [(k, d)]) k' = if k = k' then some d else lastSet sets k' := by
  unfold lastSet
  by_cases h : k = k' <;> simp [h]

theorem set_heap (s : Shared D) (env : Env) (k : Str) (d : D) :
    (CacheConc.set s env k d).1.heap = s.heap ++ [{ ctime := env.clk 0, rtime := env.clk 1, ttl := 0, data := d }] := by
  unfold CacheConc.set
  dsimp only
  split
  · rw [mClean_heap]; rfl
  · rfl

theorem set_sub {s : Shared D} (ht : Tracked s) (env : Env) (k : Str) (d : D) (k' : Str) (id : Nat)
    (h : (CacheConc.set s env k d).1.items.get k' = some id) :
    (k' = k ∧ id = s.heap.length) ∨ (k' ≠ k ∧ s.items.get k' = some id) := by
  have h1 : (CacheConc.setRaw s env k d).items.get k' = some id := by
    unfold CacheConc.set at h
    dsimp only at h
    split at h
    · exact mClean_sub (ht.setRaw env k d).nodup env 10 k' id h
    · exact h
  simp only [CacheConc.setRaw, AMap.get_set] at h1
  split at h1
  · rename_i hk; exact .inl ⟨hk, by simpa using h1.symm⟩
  · rename_i hk; exact .inr ⟨hk, h1⟩

theorem fine_set {st : State D} (h : Good st) (env : Env) (k : Str) (d : D) : Fine st (set st env k d) := by
  rw [set_free h.free, if_pos (set_ok h.tracked env k d)]
  have hext : HeapExt st.sh.heap (CacheConc.set st.sh env k d).1.heap := by rw [set_heap]; exact HeapExt.append _ _
  refine ⟨⟨h.free, h.tracked.set env k d, ?_, ?_⟩, hext⟩
  · intro k' id hk
    rcases set_sub h.tracked env k d k' id hk with ⟨h1, h2⟩ | ⟨h1, h2⟩
    · subst h1 h2
      refine ⟨{ ctime := env.clk 0, rtime := env.clk 1, ttl := 0, data := d }, ?_, ?_⟩
      · rw [set_heap]; simp
      · simp [lastSet_append]
    · obtain ⟨e, h3, h4⟩ := h.items k' id h2
      obtain ⟨e', h5, h6, _⟩ := hext id e h3
      refine ⟨e', h5, ?_⟩
      rw [lastSet_append, if_neg (Ne.symm h1), h6]; exact h4
  · intro m hm k' id hk
    obtain ⟨e, h1⟩ := h.left m hm k' id hk
    obtain ⟨e', h3, _⟩ := hext id e h1
    exact ⟨e', h3⟩

theorem tracked_heap {s : Shared D} (h : Tracked s) (hp : List (Entry D)) : Tracked { s with heap := hp } := ⟨h.nodup, h.sub⟩

theorem fine_setTTL {st : State D} (h : Good st) (k : Str) (ttl : Int) : Fine st (setTTL st k ttl) := by
  rw [setTTL_free h.free]
  cases hk : st.sh.items.get k with
  | none => exact ⟨h, HeapExt.refl _⟩
  | some id =>
    have hext : HeapExt st.sh.heap (modify st.sh.heap id fun e => { e with ttl }) := HeapExt.modify _ _ _ fun _ => ⟨rfl, rfl⟩
    exact ⟨h.shrink (tracked_heap h.tracked _) hext (fun _ _ h => h) _, hext⟩

theorem fine_del {st : State D} (h : Good st) (k : Str) : Fine st (del st k) := by
  rw [del_free h.free]
  refine ⟨h.shrink (h.tracked.del k) (HeapExt.refl _) ?_ _, HeapExt.refl _⟩
  intro k' id hk
  simp only [CacheConc.del, AMap.get_del] at hk
  split at hk
  · cases hk
  · exact hk

theorem fine_getDrop {st : State D} (h : Good st) (k : Str) : Fine st (getDrop st k) :=
  (fine_del h k).bind fun _ _ _ h1 _ => ⟨h1, HeapExt.refl _⟩

theorem fine_flush {st : State D} (h : Good st) : Fine st (flush st) := by
  rw [flush_free h.free]
  refine ⟨⟨h.free, ⟨AMap.nodup_nil, by simp⟩, by simp, ?_⟩, HeapExt.refl _⟩
  intro m hm k id hk
  rcases List.mem_append.1 hm with h1 | h1
  · exact h.left m h1 k id hk
  · rw [List.mem_singleton.1 h1] at hk
    obtain ⟨e, h2, _⟩ := h.items k id hk
    exact ⟨e, h2⟩

theorem fine_clean {st : State D} (h : Good st) (env : Env) (p : Int) : Fine st (clean st env p) := by
  rw [clean_free h.free]
  have : Good { st with sh := (CacheConc.mClean st.sh env p).1 } :=
    h.shrink (h.tracked.mClean env p) (by rw [mClean_heap]; exact HeapExt.refl _) (fun k id hk => mClean_sub h.tracked.nodup env p k id hk) _
  have hh : HeapExt st.sh.heap (CacheConc.mClean st.sh env p).1.heap := by rw [mClean_heap]; exact HeapExt.refl _
  split
  · exact ⟨this, hh⟩
  · exact ⟨this, hh⟩

theorem clean_ok {st : State D} (h : Good st) (env : Env) {p : Int} (hp : p ≤ 100) :
    clean st env p = .ret { st with sh := (CacheConc.mClean st.sh env p).1 }
        ((st.sh.pile.length : Int) - (CacheConc.mClean st.sh env p).1.pile.length) := by
  rw [clean_free h.free, if_pos (h.tracked.mClean_ok env hp)]

/-! ## Calls of validators -/

/-- What is known about the calls that a validator makes. -/
def FineCalls (call : State D → Env → Op D → Ran D (Out D)) : Prop := ∀ st env op, Good st → Fine st (call st env op)

theorem fine_invoke {call : State D → Env → Op D → Ran D (Out D)} (hc : FineCalls call) (s : Script D) :
    ∀ st, Good st → Fine st (invoke call s st) := by
  induction s with
  | answer b => intro st h; exact ⟨h, HeapExt.refl _⟩
  | panic => intro st h; exact ⟨h, HeapExt.refl _⟩
  | call env op next ih =>
    intro st h
    have h1 := hc st env op h
    unfold invoke
    cases hr : call st env op with
    | ret st1 o => rw [hr] at h1; exact Fine.mono h1.2 (ih (some o) st1 h1.1)
    | panic st1 => rw [hr] at h1; exact Fine.mono h1.2 (ih none st1 h1.1)
    | stuck => rw [hr] at h1; exact h1
    | deep => trivial

theorem Good.asked {st : State D} (h : Good st) (n : Nat) : Good { st with asked := n } := ⟨h.free, h.tracked, h.items, h.left⟩

theorem fine_ask (W : World D) {call : State D → Env → Op D → Ran D (Out D)} (hc : FineCalls call) {st : State D} (h : Good st) (k : Str)
    (t : Int) : Fine st (ask W call st k t) := by
  unfold ask
  split
  · exact Fine.mono (st1 := { st with asked := st.asked + 1 }) (HeapExt.refl _) (fine_invoke hc _ _ (h.asked _))
  · exact ⟨h, HeapExt.refl _⟩

theorem touch_free {st : State D} (h : st.mutex = .free) (k : Str) (o : Out D) :
    ((lockW st).bind fun st _ => deferW <| .ret { st with sh := { st.sh with pile := removeFromPile st.sh.pile k ++ [k] } } o) =
      .ret { st with sh := { st.sh with pile := removeFromPile st.sh.pile k ++ [k] } } o := by
  obtain ⟨sh, mu, left, n, sets⟩ := st
  cases h
  rfl

theorem tracked_touch {s : Shared D} (h : Tracked s) (k : Str) : Tracked { s with pile := removeFromPile s.pile k ++ [k] } := by
  refine ⟨h.nodup, ?_⟩
  intro k' hk'
  dsimp only
  rw [removeFromPile_eq_erase, List.mem_append, List.mem_singleton]
  by_cases hk : k' = k
  · exact .inr hk
  · exact .inl ((List.mem_erase_of_ne hk).2 (h.sub _ hk'))

theorem fine_get (W : World D) {call : State D → Env → Op D → Ran D (Out D)} (hc : FineCalls call) {st : State D} (h : Good st) (env : Env)
    (k : Str) : Fine st (get W call st env k) := by
  unfold get
  rw [mGet_free h.free, Ran.bind_ret]
  cases hk : st.sh.items.get k with
  | none => exact ⟨h, HeapExt.refl _⟩
  | some id =>
    obtain ⟨e, he, _⟩ := h.items k id hk
    dsimp only
    rw [he]
    dsimp only
    split
    · exact fine_getDrop h k
    · refine Fine.bind ?_ ?_
      · split
        · exact fine_ask W hc h k _
        · exact ⟨h, HeapExt.refl _⟩
      · intro st1 b _ h1 _
        split
        · exact fine_getDrop h1 k
        · split
          · exact fine_getDrop h1 k
          · rw [touch_free (by exact h1.free)]
            have hext : HeapExt st1.sh.heap (modify st1.sh.heap id fun e => { e with rtime := env.clk 2 }) :=
              HeapExt.modify _ _ _ fun _ => ⟨rfl, rfl⟩
            exact ⟨h1.shrink (sh := { st1.sh with heap := _, pile := _ }) (tracked_heap (tracked_touch h1.tracked k) _) hext (fun _ _ h => h) _, hext⟩

theorem Good.mapOf {st : State D} (h : Good st) {m : Nat} {k : Str} {id : Nat} (hk : (mapOf st m).get k = some id) :
    ∃ e, st.sh.heap[id]? = some e := by
  unfold CacheValidator.mapOf at hk
  cases hm : st.left[m]? with
  | none =>
    rw [hm] at hk
    obtain ⟨e, h1, _⟩ := h.items k id hk
    exact ⟨e, h1⟩
  | some mp =>
    rw [hm] at hk
    exact h.left mp (List.mem_of_getElem? hm) k id hk

theorem rangeNext_get {W : World D} {st : State D} {m : Nat} {todo done : List (Str × Nat)} {k : Str} {id : Nat}
    (h : rangeNext W st m todo done = some (k, id)) : (mapOf st m).get k = some id := by
  have hf : ∀ p, todo.find? (fun p => (mapOf st m).get p.1 == some p.2) = some p → (mapOf st m).get p.1 = some p.2 := by
    intro p hp
    have := List.find?_some hp
    simpa using this
  unfold rangeNext at h
  dsimp only at h
  split at h
  · exact hf _ h
  · split at h
    · rename_i hk
      split at h
      · exact hf _ h
      · cases h; exact hk
    · exact hf _ h

theorem fine_verifyLoop (W : World D) {call : State D → Env → Op D → Ran D (Out D)} (hc : FineCalls call) (m : Nat) :
    ∀ (f : Nat) (todo done : List (Str × Nat)) (i : Int) (st : State D), Good st → Fine st (verifyLoop W call m f todo done i st) := by
  intro f
  induction f with
  | zero => intro todo done i st h; trivial
  | succ f ih =>
    intro todo done i st h
    unfold verifyLoop
    cases hn : rangeNext W st m todo done with
    | none => exact ⟨h.asked _, HeapExt.refl _⟩
    | some p =>
      obtain ⟨k, id⟩ := p
      obtain ⟨e, he⟩ := h.mapOf (rangeNext_get hn)
      dsimp only
      rw [he]
      dsimp only
      refine Fine.bind (Fine.mono (st1 := { st with asked := st.asked + 1 }) (HeapExt.refl _) (fine_ask W hc (h.asked _) k _)) ?_
      intro st1 b _ h1 _
      split
      · exact (fine_del h1 k).bind fun st2 _ _ h2 _ => ih _ _ _ _ h2
      · exact ih _ _ _ _ h1

theorem fine_verify (W : World D) {call : State D → Env → Op D → Ran D (Out D)} (hc : FineCalls call) (f : Nat) {st : State D} (h : Good st)
    (env : Env) : Fine st (verify W call f st env) := by
  unfold verify
  refine (fine_clean h env 0).bind ?_
  intro st1 i _ h1 _
  split
  · exact fine_verifyLoop W hc _ f _ _ _ _ h1
  · exact ⟨h1, HeapExt.refl _⟩

theorem fine_exec (W : World D) : ∀ (f : Nat), FineCalls (exec W f) := by
  intro f
  induction f with
  | zero => intro st env op h; trivial
  | succ f ih =>
    intro st env op h
    cases op with
    | set k d => exact fine_set h env k d
    | setTTL k t => exact fine_setTTL h k t
    | get k => exact fine_get W ih h env k
    | del k => exact fine_del h k
    | count => unfold exec; dsimp only; rw [count_free h.free]; exact ⟨h, HeapExt.refl _⟩
    | clean p => exact (fine_clean h env p).bind fun st1 _ _ h1 _ => ⟨h1, HeapExt.refl _⟩
    | verify => exact fine_verify W ih f h env
    | flush => exact fine_flush h
    | setMaxitems m => exact ⟨⟨h.free, ⟨h.tracked.nodup, h.tracked.sub⟩, h.items, h.left⟩, HeapExt.refl _⟩
    | setExpire m => exact ⟨⟨h.free, ⟨h.tracked.nodup, h.tracked.sub⟩, h.items, h.left⟩, HeapExt.refl _⟩
    | setValidator m => exact ⟨⟨h.free, ⟨h.tracked.nodup, h.tracked.sub⟩, h.items, h.left⟩, HeapExt.refl _⟩

theorem fine_run (W : World D) (f : Nat) : ∀ (h : List (Env × Op D)) (st : State D), Good st → Fine st (run W f st h) := by
  intro h
  induction h with
  | nil => intro st hg; exact ⟨hg, HeapExt.refl _⟩
  | cons c h ih =>
    intro st hg
    obtain ⟨env, op⟩ := c
    have h1 := fine_exec W f st env op hg
    unfold run
    cases hr : exec W f st env op with
    | ret st1 o =>
      rw [hr] at h1
      exact Fine.mono h1.2 ((ih st1 h1.1).bind fun st2 _ _ h2 _ => ⟨h2, HeapExt.refl _⟩)
    | panic st1 =>
      rw [hr] at h1
      exact Fine.mono h1.2 ((ih st1 h1.1).bind fun st2 _ _ h2 _ => ⟨h2, HeapExt.refl _⟩)
    | stuck => rw [hr] at h1; exact h1
    | deep => trivial

theorem begun_good {W : World D} {st : State D} (h : Begun W st) : Good st := by
  obtain ⟨m, e, hist, f, outs, hr⟩ := h
  have := fine_run W f hist (new m e) (Good.new m e)
  rw [hr] at this
  exact this.1

/-! ## The number of steps does not matter -/

/-- The second is the first, unless the first takes too many steps. -/
def Le (r r' : Ran D α) : Prop := r = .deep ∨ r = r'

theorem Le.refl (r : Ran D α) : Le r r := .inr rfl

theorem Le.bind {r r' : Ran D α} {f f' : State D → α → Ran D β} (h : Le r r') (hf : ∀ st a, Le (f st a) (f' st a)) : Le (r.bind f) (r'.bind f') := by
  rcases h with h | h
  · subst h; exact .inl rfl
  · subst h
    cases r with
    | ret st a => exact hf st a
    | panic st => exact .inr rfl
    | stuck => exact .inr rfl
    | deep => exact .inr rfl

/-- Calls with more steps. -/
def LeCalls (call call' : State D → Env → Op D → Ran D (Out D)) : Prop := ∀ st env op, Le (call st env op) (call' st env op)

theorem le_invoke {call call' : State D → Env → Op D → Ran D (Out D)} (h : LeCalls call call') (s : Script D) :
    ∀ st, Le (invoke call s st) (invoke call' s st) := by
  induction s with
  | answer b => intro st; exact .inr rfl
  | panic => intro st; exact .inr rfl
  | call env op next ih =>
    intro st
    unfold invoke
    rcases h st env op with h1 | h1
    · rw [h1]; exact .inl rfl
    · rw [← h1]
      cases call st env op with
      | ret st1 o => exact ih _ _
      | panic st1 => exact ih _ _
      | stuck => exact .inr rfl
      | deep => exact .inr rfl

theorem le_ask (W : World D) {call call' : State D → Env → Op D → Ran D (Out D)} (h : LeCalls call call') (st : State D) (k : Str) (t : Int) :
    Le (ask W call st k t) (ask W call' st k t) := by
  unfold ask
  split
  · exact le_invoke h _ _
  · exact .inr rfl

theorem le_get (W : World D) {call call' : State D → Env → Op D → Ran D (Out D)} (h : LeCalls call call') (st : State D) (env : Env) (k : Str) :
    Le (get W call st env k) (get W call' st env k) := by
  unfold get
  refine (Le.refl _).bind ?_
  intro st1 x
  cases x with
  | none => exact .inr rfl
  | some id =>
    dsimp only
    cases st1.sh.heap[id]? with
    | none => exact .inr rfl
    | some e =>
      dsimp only
      split
      · exact .inr rfl
      · refine Le.bind ?_ fun _ _ => .inr rfl
        split
        · exact le_ask W h _ _ _
        · exact .inr rfl

theorem le_verifyLoop (W : World D) {call call' : State D → Env → Op D → Ran D (Out D)} (h : LeCalls call call') (m : Nat) :
    ∀ (f : Nat) (todo done : List (Str × Nat)) (i : Int) (st : State D),
      Le (verifyLoop W call m f todo done i st) (verifyLoop W call' m (f + 1) todo done i st) := by
  intro f
  induction f with
  | zero => intro todo done i st; exact .inl rfl
  | succ f ih =>
    intro todo done i st
    rw [verifyLoop, verifyLoop]
    cases rangeNext W st m todo done with
    | none => exact .inr rfl
    | some p =>
      obtain ⟨k, id⟩ := p
      dsimp only
      cases st.sh.heap[id]? with
      | none => exact .inr rfl
      | some e =>
        dsimp only
        refine (le_ask W h _ _ _).bind ?_
        intro st1 b
        split
        · exact (Le.refl _).bind fun _ _ => ih _ _ _ _
        · exact ih _ _ _ _

theorem le_exec (W : World D) : ∀ f, LeCalls (exec W f) (exec W (f + 1)) := by
  intro f
  induction f with
  | zero => intro st env op; exact .inl rfl
  | succ f ih =>
    intro st env op
    cases op with
    | get k => exact le_get W ih st env k
    | verify =>
      refine (Le.refl (clean st env 0)).bind ?_
      intro st1 i
      split
      · exact le_verifyLoop W ih _ _ _ _ _ _
      · exact .inr rfl
    | _ => exact .inr rfl

theorem le_exec_add (W : World D) (f n : Nat) : LeCalls (exec W f) (exec W (f + n)) := by
  intro st env op
  induction n with
  | zero => exact .inr rfl
  | succ n ih =>
    rcases ih with h | h
    · exact .inl h
    · rw [h]; exact le_exec W (f + n) st env op

theorem le_run (W : World D) (f n : Nat) : ∀ (h : List (Env × Op D)) (st : State D), Le (run W f st h) (run W (f + n) st h) := by
  intro h
  induction h with
  | nil => intro st; exact .inr rfl
  | cons c h ih =>
    intro st
    obtain ⟨env, op⟩ := c
    unfold run
    rcases le_exec_add W f n st env op with h1 | h1
    · rw [h1]; exact .inl rfl
    · rw [← h1]
      cases exec W f st env op with
      | ret st1 o => exact (ih st1).bind fun _ _ => .inr rfl
      | panic st1 => exact (ih st1).bind fun _ _ => .inr rfl
      | stuck => exact .inr rfl
      | deep => exact .inr rfl

theorem run_append (W : World D) (f : Nat) (h' : List (Env × Op D)) : ∀ (h : List (Env × Op D)) (st : State D),
    run W f st (h ++ h') = (run W f st h).bind fun st1 outs => (run W f st1 h').map (outs ++ ·) := by
  intro h
  induction h with
  | nil => intro st; simp only [List.nil_append, run, Ran.bind_ret]; cases run W f st h' <;> rfl
  | cons c h ih =>
    intro st
    obtain ⟨env, op⟩ := c
    simp only [List.cons_append, run]
    cases exec W f st env op with
    | ret st1 o =>
      dsimp only
      rw [ih]
      cases run W f st1 h with
      | ret st2 outs =>
        simp only [Ran.map, Ran.bind_ret]
        cases run W f st2 h' <;> rfl
      | _ => rfl
    | panic st1 =>
      dsimp only
      rw [ih]
      cases run W f st1 h with
      | ret st2 outs =>
        simp only [Ran.map, Ran.bind_ret]
        cases run W f st2 h' <;> rfl
      | _ => rfl
    | stuck => rfl
    | deep => rfl

/-! ## When nothing panics -/

/-- No panic, and an installed validator stays installed. -/
def Tame (st : State D) : Ran D α → Prop
  | .ret st' _ => st.sh.hasValidator = true → st'.sh.hasValidator = true
  | .panic _ => False
  | _ => True

theorem Tame.bind {st : State D} {r : Ran D α} {f : State D → α → Ran D β} (hf : Fine st r) (hr : Tame st r)
    (h : ∀ st' a, Good st' → (st.sh.hasValidator = true → st'.sh.hasValidator = true) → Tame st' (f st' a)) : Tame st (r.bind f) := by
  cases r with
  | ret st1 a =>
    have h1 := h st1 a hf.1 hr
    simp only [Ran.bind]
    cases hx : f st1 a with
    | ret st2 b => rw [hx] at h1; exact fun hv => h1 (hr hv)
    | panic st2 => rw [hx] at h1; exact h1
    | stuck => trivial
    | deep => trivial
  | panic st1 => exact hr
  | stuck => trivial
  | deep => trivial

theorem mClean_validator (s : Shared D) (env : Env) (p : Int) : (CacheConc.mClean s env p).1.hasValidator = s.hasValidator := by
  unfold CacheConc.mClean; dsimp only; split <;> rfl

theorem set_validator (s : Shared D) (env : Env) (k : Str) (d : D) : (CacheConc.set s env k d).1.hasValidator = s.hasValidator := by
  unfold CacheConc.set
  dsimp only
  split
  · rw [mClean_validator]; rfl
  · rfl

theorem tame_del {st : State D} (h : Good st) (k : Str) : Tame st (del st k) := by
  rw [del_free h.free]; exact id

theorem tame_getDrop {st : State D} (h : Good st) (k : Str) : Tame st (getDrop st k) := by
  rw [getDrop_free h.free]; exact id

/-- What is known about the calls that calm validators make. -/
def TameCalls (call : State D → Env → Op D → Ran D (Out D)) : Prop :=
  ∀ st env op, Good st → Mild op → op ≠ .setValidator false → Tame st (call st env op)

theorem tame_invoke {call : State D → Env → Op D → Ran D (Out D)} (hc : FineCalls call) (ht : TameCalls call) (s : Script D) (hs : Calm s) :
    ∀ st, Good st → Tame st (invoke call s st) := by
  induction s with
  | answer b => intro st _; exact id
  | panic => exact hs.elim
  | call env op next ih =>
    intro st h
    have h1 := hc st env op h
    have h2 := ht st env op h hs.1 hs.2.1
    unfold invoke
    cases hr : call st env op with
    | ret st1 o =>
      rw [hr] at h1 h2
      have h3 := ih (some o) (hs.2.2 o) st1 h1.1
      dsimp only
      cases hx : invoke call (next (some o)) st1 with
      | ret st2 b => rw [hx] at h3; exact fun hv => h3 (h2 hv)
      | panic st2 => rw [hx] at h3; exact h3
      | stuck => trivial
      | deep => trivial
    | panic st1 => rw [hr] at h2; exact h2.elim
    | stuck => trivial
    | deep => trivial

theorem tame_ask {W : World D} (hW : ∀ n k t, Calm (W.validator n k t)) {call : State D → Env → Op D → Ran D (Out D)} (hc : FineCalls call)
    (ht : TameCalls call) {st : State D} (h : Good st) (hv : st.sh.hasValidator = true) (k : Str) (t : Int) : Tame st (ask W call st k t) := by
  unfold ask
  rw [if_pos hv]
  exact tame_invoke hc ht _ (hW _ _ _) _ (h.asked _)

theorem tame_get {W : World D} (hW : ∀ n k t, Calm (W.validator n k t)) {call : State D → Env → Op D → Ran D (Out D)} (hc : FineCalls call)
    (ht : TameCalls call) {st : State D} (h : Good st) (env : Env) (k : Str) : Tame st (get W call st env k) := by
  unfold get
  rw [mGet_free h.free, Ran.bind_ret]
  cases hk : st.sh.items.get k with
  | none => exact id
  | some id' =>
    obtain ⟨e, he, _⟩ := h.items k id' hk
    dsimp only
    rw [he]
    dsimp only
    split
    · exact tame_getDrop h k
    · refine Tame.bind ?_ ?_ ?_
      · split
        · exact fine_ask W hc h k _
        · exact ⟨h, HeapExt.refl _⟩
      · split
        · rename_i hv; exact tame_ask hW hc ht h hv k _
        · exact id
      · intro st1 b h1 _
        split
        · exact tame_getDrop h1 k
        · split
          · exact tame_getDrop h1 k
          · rw [touch_free (by exact h1.free)]
            exact id

theorem tame_verifyLoop {W : World D} (hW : ∀ n k t, Calm (W.validator n k t)) {call : State D → Env → Op D → Ran D (Out D)} (hc : FineCalls call)
    (ht : TameCalls call) (m : Nat) : ∀ (f : Nat) (todo done : List (Str × Nat)) (i : Int) (st : State D), Good st → st.sh.hasValidator = true →
      Tame st (verifyLoop W call m f todo done i st) := by
  intro f
  induction f with
  | zero => intro todo done i st h hv; trivial
  | succ f ih =>
    intro todo done i st h hv
    unfold verifyLoop
    cases hn : rangeNext W st m todo done with
    | none => exact id
    | some p =>
      obtain ⟨k, id'⟩ := p
      obtain ⟨e, he⟩ := h.mapOf (rangeNext_get hn)
      dsimp only
      rw [he]
      dsimp only
      have h2 : Tame st ((ask W call { st with asked := st.asked + 1 } k e.ctime)) :=
        tame_ask hW hc ht (h.asked (st.asked + 1)) hv k _
      refine Tame.bind (Fine.mono (st1 := { st with asked := st.asked + 1 }) (HeapExt.refl _) (fine_ask W hc (h.asked _) k _)) h2 ?_
      intro st1 b h1 hv1
      split
      · refine Tame.bind (fine_del h1 k) (tame_del h1 k) ?_
        intro st2 _ h3 hv3
        exact ih _ _ _ _ h3 (hv3 (hv1 hv))
      · exact ih _ _ _ _ h1 (hv1 hv)

theorem tame_exec {W : World D} (hW : ∀ n k t, Calm (W.validator n k t)) : ∀ f, TameCalls (exec W f) := by
  intro f
  induction f with
  | zero => intro st env op _ _ _; trivial
  | succ f ih =>
    intro st env op h hm hu
    cases op with
    | set k d =>
      unfold exec; dsimp only
      rw [set_free h.free, if_pos (set_ok h.tracked env k d)]
      intro hv
      show (CacheConc.set st.sh env k d).1.hasValidator = true
      rw [set_validator]; exact hv
    | setTTL k t =>
      unfold exec; dsimp only
      rw [setTTL_free h.free]
      intro hv
      cases st.sh.items.get k <;> exact hv
    | get k => exact tame_get hW (fine_exec W f) ih h env k
    | del k => exact tame_del h k
    | count => unfold exec; dsimp only; rw [count_free h.free]; exact id
    | clean p =>
      unfold exec; dsimp only
      rw [clean_ok h env hm]
      intro hv
      show (CacheConc.mClean st.sh env p).1.hasValidator = true
      rw [mClean_validator]; exact hv
    | verify =>
      refine Tame.bind (r := clean st env 0) (fine_clean h env 0) ?_ ?_
      · rw [clean_ok h env (by decide)]
        intro hv
        show (CacheConc.mClean st.sh env 0).1.hasValidator = true
        rw [mClean_validator]; exact hv
      · intro st1 i h1 _
        split
        · rename_i hv; exact tame_verifyLoop hW (fine_exec W f) ih _ _ _ _ _ _ h1 hv
        · exact id
    | flush => unfold exec; dsimp only; rw [flush_free h.free]; exact id
    | setMaxitems m => exact id
    | setExpire m => exact id
    | setValidator b =>
      cases b with
      | true => exact fun _ => rfl
      | false => exact (hu rfl).elim

theorem exec_no_panic {W : World D} (hW : ∀ n k t, Calm (W.validator n k t)) {f : Nat} {st st' : State D} (h : Good st) {env : Env} {op : Op D}
    (hm : Mild op) : exec W f st env op ≠ .panic st' := by
  by_cases hu : op = .setValidator false
  · subst hu
    cases f <;> nofun
  · intro hr
    have := tame_exec hW f st env op h hm hu
    rw [hr] at this
    exact this

theorem run_no_panic {W : World D} (hW : ∀ n k t, Calm (W.validator n k t)) {f : Nat} : ∀ (h : List (Env × Op D)) (st st' : State D)
    (outs : List (Option (Out D))), Good st → (∀ c ∈ h, Mild c.2) → run W f st h = .ret st' outs → none ∉ outs := by
  intro h
  induction h with
  | nil => intro st st' outs _ _ hr; cases hr; simp
  | cons c h ih =>
    intro st st' outs hg hm hr
    obtain ⟨env, op⟩ := c
    unfold run at hr
    have h1 := fine_exec W f st env op hg
    cases hx : exec W f st env op with
    | ret st1 o =>
      rw [hx] at hr h1
      dsimp only at hr
      cases hy : run W f st1 h with
      | ret st2 outs2 =>
        have := ih st1 st2 outs2 h1.1 (fun c hc => hm c (List.mem_cons_of_mem _ hc)) hy
        rw [hy] at hr
        cases hr
        simp [this]
      | _ => rw [hy] at hr; cases hr
    | panic st1 => exact (exec_no_panic hW hg (hm _ (List.mem_cons_self ..)) hx).elim
    | stuck => rw [hx] at hr; cases hr
    | deep => rw [hx] at hr; cases hr

/-! ## What Get answers -/

theorem get_data {W : World D} {call : State D → Env → Op D → Ran D (Out D)} {st st' : State D} (h : Good st) {env : Env} {k : Str}
    {d : D} {b : Bool} (hr : get W call st env k = .ret st' (.got (some d) b)) (hc : FineCalls call) :
    b = false ∧ lastSet st.sets k = some d := by
  unfold get at hr
  rw [mGet_free h.free, Ran.bind_ret] at hr
  cases hk : st.sh.items.get k with
  | none => rw [hk] at hr; cases hr
  | some id =>
    obtain ⟨e, he, hl⟩ := h.items k id hk
    rw [hk] at hr
    dsimp only at hr
    rw [he] at hr
    dsimp only at hr
    split at hr
    · rw [getDrop_free h.free] at hr; cases hr
    · have hfine : Fine st (if st.sh.hasValidator then ask W call st k e.ctime else .ret st true) := by
        split
        · exact fine_ask W hc h k _
        · exact ⟨h, HeapExt.refl _⟩
      generalize (if st.sh.hasValidator then ask W call st k e.ctime else .ret st true) = r at hr hfine
      cases r with
      | ret st1 b1 =>
        rw [Ran.bind_ret] at hr
        split at hr
        · rw [getDrop_free hfine.1.free] at hr; cases hr
        · split at hr
          · rw [getDrop_free hfine.1.free] at hr; cases hr
          · rw [touch_free (by exact hfine.1.free)] at hr
            cases hr
            exact ⟨rfl, hl⟩
      | _ => cases hr

end Xcore.CacheValidator
