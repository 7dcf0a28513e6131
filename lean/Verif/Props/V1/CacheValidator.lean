import Verif.Proof.V1.CacheValidatorPlain

/-!
# Property C101: version 1, validators that use the cache themselves, or panic

The model is `Verif/Model/V1/CacheValidator.lean`: an invocation of the validator is a program (`Script`) that may make calls on the same cache,
recover from their panics, and ends with an answer or a panic. The specification is `Verif/Spec/V1/CacheValidator.lean`.
-/

namespace Xcore.V1.CacheValidator

open Xcore.Cache (Env Out)
open Xcore.V1.Cache (Entry Op removeFromPile)
open Xcore.V1.CacheConc (Shared)
open Spec

variable {D : Type}

/-- C101. As long as percentages are at most 100, those in the calls of validators included: no call on the cache blocks for ever, neither those of
the validators nor those made afterwards, whatever else validators do and whether or not they panic. -/
theorem C101_no_call_blocks (W : World D) (hW : ∀ n k t, Gentle (W.validator n k t)) (m e : Int) (h : List (Env × Op D))
    (hm : ∀ c ∈ h, Mild c.2) (f : Nat) : run W f (new m e) h ≠ .stuck := by
  intro hr
  have := fine_run (g := True) (fun _ => hW) f h (new m e) (Good.new m e) (fun _ => hm)
  rw [hr] at this
  cases this trivial

/-- C101. A `Clean` that panics (this needs a percentage above 100) leaves the mutex locked: after it no call of any method on this cache ever
returns, whoever recovers from the panic and whatever the validator is. (In version 2 it does no harm: `C98_no_call_blocks`.) -/
theorem C101_after_a_panic_of_clean_all_calls_block (W : World D) (st st' : State D) (h : Begun W st) (env : Env) (p : Int)
    (hr : Ends W st env (.clean p) (.panic st')) :
    100 < p ∧ ∀ (W' : World D) (env' : Env) (op : Op D), ¬ IsField op → Ends W' st' env' op .stuck := by
  have hg := begun_good h
  obtain ⟨_, f, hf⟩ := hr
  cases f with
  | zero => cases hf
  | succ f =>
    have hx : clean st env p = .panic st' := by
      unfold exec at hf
      dsimp only at hf
      cases hc : clean st env p with
      | ret s a => rw [hc] at hf; cases hf
      | panic s => rw [hc] at hf; cases hf; rfl
      | stuck => rw [hc] at hf; cases hf
      | deep => rw [hc] at hf; cases hf
    have hfree : st.sh.locked = false := by
      cases hl : st.sh.locked with
      | false => rfl
      | true => rw [clean, lock_held hl] at hx; cases hx
    rw [clean_free hfree] at hx
    cases hc : (CacheConc.clean st.sh env p).2 with
    | true => rw [hc] at hx; cases hx
    | false =>
      rw [hc] at hx
      cases hx
      refine ⟨(CacheConc.clean_kept hg.nodup hg.sub env p).2 hc, ?_⟩
      have hl : (CacheConc.clean st.sh env p).1.locked = true := by
        unfold CacheConc.clean at hc ⊢
        dsimp only at hc ⊢
        generalize (if st.sh.expire ≠ 0 then
            st.sh.items.filter (fun p => match st.sh.heap[p.2]? with
              | some e => !decide (e.ctime + st.sh.expire < env.clkAt p.1)
              | none => true)
          else st.sh.items : AMap Nat) = its at hc ⊢
        by_cases hn : ((its.length * p).tdiv 100).toNat ≤ st.sh.pile.length
        · rw [if_pos hn] at hc; cases hc
        · rw [if_neg hn]
      intro W' env' op hop
      refine ⟨nofun, 1, ?_⟩
      cases op with
      | set k d => unfold exec; dsimp only; rw [set, lock_held (by exact hl)]; rfl
      | get k => unfold exec; dsimp only; rw [get, lock_held (by exact hl)]; rfl
      | del k => unfold exec; dsimp only; rw [del, lock_held (by exact hl)]; rfl
      | count => unfold exec; dsimp only; rw [count, lock_held (by exact hl)]; rfl
      | clean p => unfold exec; dsimp only; rw [clean, lock_held (by exact hl)]; rfl
      | verify => unfold exec; dsimp only; rw [verify, clean, lock_held (by exact hl)]; rfl
      | flush => unfold exec; dsimp only; rw [flush, lock_held (by exact hl)]; rfl
      | _ => exact (hop trivial).elim

/-- C101. Whatever validators do: as long as they do not panic and do not uninstall themselves, and percentages are at most 100, nothing
panics. -/
theorem C101_only_validators_panic (W : World D) (hW : ∀ n k t, Calm (W.validator n k t)) (m e : Int) (h : List (Env × Op D))
    (hm : ∀ c ∈ h, Mild c.2) (f : Nat) (st : State D) (outs : List (Option (Out D))) (hr : run W f (new m e) h = .ret st outs) : none ∉ outs :=
  run_no_panic hW h _ _ _ (Good.new m e) hm hr

/-- C101. Whatever validators do, meanwhile and before: data that Get returns are those of the last Set under this key *before* the Get
started. What the validator stores while it is asked is not returned. -/
theorem C101_get_returns_last_set_before (W : World D) (st st' : State D) (h : Begun W st) (env : Env) (k : Str) (d : D) (b : Bool)
    (hr : Ends W st env (.get k) (.ret st' (.got (some d) b))) : b = false ∧ lastSet st.sets k = some d := by
  obtain ⟨_, f, hf⟩ := hr
  cases f with
  | zero => cases hf
  | succ f => exact get_data (begun_good h) hf

/-- C101. Whatever validators did, if no panic of Clean has left the mutex locked, then no entry has become impossible to evict: `Clean(100)`,
repeated often enough, empties the cache. -/
theorem C101_nothing_escapes_eviction (W : World D) (st : State D) (h : Begun W st) (hfree : st.sh.locked = false) (env : Env) (f : Nat) :
    ∃ n st' outs, run W (f + 1) st (List.replicate n (env, .clean 100)) = .ret st' outs ∧ none ∉ outs ∧ st'.sh.items = [] := by
  have hg := begun_good h
  clear h
  generalize hl : st.sh.pile.length = l
  induction l using Nat.strongRecOn generalizing st with
  | _ l ih =>
    have hok := clean_flag hg env (p := 100) (by decide)
    have hfree' : (CacheConc.clean st.sh env 100).1.locked = false := (clean_keeps _ _ _ hok).trans hfree
    have hx : exec W (f + 1) st env (.clean 100) = _ := congrArg (Ran.map Out.num) (clean_ok hg hfree env (p := 100) (by decide))
    have key : (CacheConc.clean st.sh env 100).1.items = [] ∨ (CacheConc.clean st.sh env 100).1.pile.length < l := by
      have hlen : st.sh.items.length ≤ st.sh.pile.length := by
        have h1 : st.sh.items.keys.length ≤ st.sh.pile.length := nodup_length_le hg.nodup fun k hk => by
          obtain ⟨id, h⟩ := (AMap.mem_keys_iff _ _).1 hk
          exact hg.sub k id h
        simpa [AMap.keys] using h1
      have hle := CacheConc.foldl_length st.sh env
      unfold CacheConc.clean at hok ⊢
      dsimp only at hok ⊢
      revert hok hle
      generalize (if st.sh.expire ≠ 0 then
          st.sh.items.filter (fun p => match st.sh.heap[p.2]? with
            | some e => !decide (e.ctime + st.sh.expire < env.clkAt p.1)
            | none => true)
        else st.sh.items : AMap Nat) = its
      intro hok hle
      have hle' : its.length ≤ st.sh.items.length := hle
      have hnum : (Int.tdiv (its.length * 100) 100).toNat = its.length := by
        rw [Int.mul_tdiv_cancel _ (by omega)]; rfl
      rw [hnum, if_pos (by omega)]
      dsimp only
      rcases Nat.eq_zero_or_pos its.length with h0 | h0
      · left
        rw [h0, List.eq_nil_of_length_eq_zero h0]; rfl
      · right
        rw [List.length_drop]; omega
    rcases key with h0 | h0
    · refine ⟨1, { st with sh := (CacheConc.clean st.sh env 100).1 }, [some (.num ((st.sh.pile.length : Int) - (CacheConc.clean st.sh env 100).1.pile.length))], ?_, by simp, h0⟩
      rw [List.replicate_one, run, hx]; rfl
    · obtain ⟨n, st', outs, h6, h7, h8⟩ := ih _ h0 { st with sh := (CacheConc.clean st.sh env 100).1 } hfree' (hg.clean env 100) rfl
      refine ⟨n + 1, st', some (.num ((st.sh.pile.length : Int) - (CacheConc.clean st.sh env 100).1.pile.length)) :: outs, ?_, by simp [h7], h8⟩
      rw [List.replicate_succ, run, hx]
      dsimp only [Ran.map, Ran.bind]
      rw [h6]

/-- C101. If every invocation of the validator just answers, the same for the same key and time, and percentages are at most 100, then the cache
behaves as with the validator of the sequential model (`Verif/Model/V1/Cache.lean`); in particular every call ends. -/
theorem C101_validators_that_only_answer (W : World D) (v : Str → Int → Bool) (hW : ∀ n k t, W.validator n k t = .answer (v k t)) (m e : Int)
    (h : List (Env × Op D)) (hv : ∀ x ∈ h, x.1.valid = v) (hm : ∀ x ∈ h, Mild x.2) :
    ∃ f st outs, run W f (new m e) h = .ret st outs ∧ CacheConc.Spec.Holds st.sh (Cache.run (Cache.new m e) h).1 ∧
      outs = (Cache.run (Cache.new m e) h).2.map some := by
  obtain ⟨f, st, outs, h1, h2, h3⟩ := same_run hW h (new m e) (Cache.new m e) (Good.new m e) rfl
    ⟨⟨rfl, rfl, rfl, rfl, .nil⟩, AMap.nodup_nil, by simp [new]⟩ hv hm
  exact ⟨f, st, outs, h1, h2.holds, h3⟩

/-- C101. How a call ends does not depend on the number of steps the model grants. -/
theorem C101_steps_do_not_matter (W : World D) (st : State D) (env : Env) (op : Op D) (r r' : Ran D (Out D)) (h : Ends W st env op r)
    (h' : Ends W st env op r') : r = r' ∧ ¬ Endless W st env op := by
  obtain ⟨h1, f, hf⟩ := h
  obtain ⟨h2, g, hg⟩ := h'
  refine ⟨?_, fun he => h1 (by rw [← hf]; exact he f)⟩
  have a := le_exec_add W f g st env op
  have b := le_exec_add W g f st env op
  rw [hf] at a
  rw [hg, Nat.add_comm] at b
  rw [a.resolve_left h1, b.resolve_left h2]

/-! ## What may surprise -/

/-- C101. A validator that refreshes the entry with Set and then answers true: the Get that asked it still returns the *old* data. The new data
are in the cache. -/
theorem C101_refreshed_data_are_not_returned (W : World D) (st : State D) (hfree : st.sh.locked = false) (env env' : Env) (k : Str)
    (id : Nat) (e : Entry D) (d' : D) (hid : st.sh.items.get k = some id) (he : st.sh.heap[id]? = some e) (hexp : st.sh.expire = 0)
    (hm : st.sh.maxitems ≤ 0) (hval : st.sh.hasValidator = true) (hW : W.validator st.asked k e.ctime = refresh env' k d' true) :
    ∃ st', Ends W st env (.get k) (.ret st' (.got (some e.data) false)) ∧
      (st'.sh.items.get k).bind (fun id => st'.sh.heap[id]?) = some { ctime := env'.clk 0, rtime := env'.clk 1, data := d' } := by
  have hset : exec W 1 { st with asked := st.asked + 1 } env' (.set k d') =
      .ret { st with sh := CacheConc.set st.sh env' k d', asked := st.asked + 1, sets := st.sets ++ [(k, d')] } .unit := by
    unfold exec
    dsimp only
    rw [set_free (by exact hfree), if_neg]
    intro hx
    have h1 : 0 < st.sh.maxitems := hx.1
    omega
  refine ⟨{ st with
      sh := { CacheConc.set st.sh env' k d' with
        heap := (CacheConc.set st.sh env' k d').heap.modify id (fun e => { e with rtime := env.clk 2 }),
        pile := removeFromPile (CacheConc.set st.sh env' k d').pile k ++ [k] },
      asked := st.asked + 1, sets := st.sets ++ [(k, d')] }, ⟨nofun, 2, ?_⟩, ?_⟩
  · unfold exec
    dsimp only
    rw [get_free W _ hfree, hid]
    dsimp only
    rw [he]
    dsimp only
    rw [if_pos hval, ask, if_pos hval, hW, refresh, invoke, hset]
    dsimp only
    rw [invoke, Ran.bind_ret]
    rw [if_neg (by simp), if_neg (by simp [CacheConc.set, hexp])]
  · dsimp only
    simp only [CacheConc.set, AMap.get_set_self, Option.bind_some]
    have hlt : id < st.sh.heap.length := (List.getElem?_eq_some_iff.1 he).1
    rw [List.getElem?_modify]
    have hne : id ≠ st.sh.heap.length := by omega
    simp [hne]

/-- C101. A validator that refreshes the entry with Set and then answers false (the old data were not valid): Get deletes the *new* entry. -/
theorem C101_refreshed_data_are_deleted (W : World D) (st : State D) (h : Begun W st) (hfree : st.sh.locked = false) (env env' : Env) (k : Str)
    (id : Nat) (e : Entry D) (d' : D) (hid : st.sh.items.get k = some id) (he : st.sh.heap[id]? = some e)
    (hval : st.sh.hasValidator = true) (hW : W.validator st.asked k e.ctime = refresh env' k d' false) :
    ∃ st', Ends W st env (.get k) (.ret st' (.got none true)) ∧ st'.sh.items.get k = none ∧ lastSet st'.sets k = some d' := by
  have hg := begun_good h
  have hset : ∃ st1, exec W 1 { st with asked := st.asked + 1 } env' (.set k d') = .ret st1 .unit ∧ st1.sh.locked = false ∧
      st1.sets = st.sets ++ [(k, d')] := by
    unfold exec
    dsimp only
    rw [set_free (by exact hfree)]
    dsimp only
    have hs := ((hg.asked (st.asked + 1)).set env' k d')
    split
    · rw [clean_ok hs (by exact hfree) env' (by decide), Ran.bind_ret]
      exact ⟨_, rfl, (clean_keeps _ _ _ (clean_flag hs env' (by decide))).trans hfree, rfl⟩
    · exact ⟨_, rfl, hfree, rfl⟩
  obtain ⟨st1, h1, h2, h3⟩ := hset
  refine ⟨{ st1 with sh := CacheConc.del st1.sh k }, ⟨nofun, 2, ?_⟩, ?_⟩
  · unfold exec
    dsimp only
    rw [get_free W _ hfree, hid]
    dsimp only
    rw [he]
    dsimp only
    rw [if_pos hval, ask, if_pos hval, hW, refresh, invoke, h1]
    dsimp only
    rw [invoke, Ran.bind_ret, if_pos (by simp), getDrop_free h2]
  · dsimp only
    refine ⟨by simp [CacheConc.del, AMap.get_del_self], by simp [h3, lastSet_append]⟩

/-- C101. A validator that calls Get with the key it is asked about never ends, and so the Get that asks it: nothing stops the recursion. -/
theorem C101_get_of_own_key_never_ends (W : World D) (st : State D) (hfree : st.sh.locked = false) (env : Env) (k : Str) (id : Nat) (e : Entry D)
    (hid : st.sh.items.get k = some id) (he : st.sh.heap[id]? = some e) (hval : st.sh.hasValidator = true)
    (hW : ∀ n, ∃ env' next, W.validator n k e.ctime = .call env' (.get k) next) : Endless W st env (.get k) := by
  intro f
  have key : ∀ (f n : Nat) (env : Env), exec W f { st with asked := n } env (.get k) = .deep := by
    intro f
    induction f with
    | zero => intro n env; rfl
    | succ f ih =>
      intro n env
      unfold exec
      dsimp only
      rw [get_free W _ (by exact hfree)]
      dsimp only
      rw [hid]
      dsimp only
      rw [he]
      dsimp only
      rw [if_pos hval]
      obtain ⟨env', next, hn⟩ := hW n
      unfold ask
      dsimp only
      rw [if_pos hval, hn]
      unfold invoke
      rw [ih]
      rfl
  exact key f st.asked env

/-- C101. A validator that panics at once: Get panics, and nothing in the cache has changed; the mutex is free. -/
theorem C101_panic_in_get (W : World D) (st : State D) (hfree : st.sh.locked = false) (env : Env) (k : Str) (id : Nat) (e : Entry D)
    (hid : st.sh.items.get k = some id) (he : st.sh.heap[id]? = some e) (hval : st.sh.hasValidator = true)
    (hW : W.validator st.asked k e.ctime = .panic) : ∃ st', Ends W st env (.get k) (.panic st') ∧ st'.sh = st.sh := by
  refine ⟨{ st with asked := st.asked + 1 }, ⟨nofun, 1, ?_⟩, rfl⟩
  unfold exec
  dsimp only
  rw [get_free W _ hfree, hid]
  dsimp only
  rw [he]
  dsimp only
  rw [if_pos hval]
  unfold ask
  rw [if_pos hval, hW]
  rfl

theorem rangeNext_forced {W : World D} {st : State D} {m : Nat} {todo done : List (Str × Nat)} {p : Str × Nat} (hp : p ∈ todo)
    (hget : (mapOf st m).get p.1 = some p.2) : ∃ q, rangeNext W st m todo done = some q := by
  have hf : ∃ q, todo.find? (fun p => (mapOf st m).get p.1 == some p.2) = some q := by
    cases hx : todo.find? (fun p => (mapOf st m).get p.1 == some p.2) with
    | some q => exact ⟨q, rfl⟩
    | none =>
      rw [List.find?_eq_none] at hx
      exact absurd (by simpa using hget) (hx p hp)
  unfold rangeNext
  dsimp only
  split
  · exact hf
  · split
    · split
      · exact hf
      · exact ⟨_, rfl⟩
    · exact hf

/-- C101. A validator that uninstalls itself (`c.Validator = nil`) while Verify runs: Verify looks at the field only once before its loop,
so with at least two entries it calls a nil function and panics. The mutex is free then. -/
theorem C101_uninstalled_during_verify (W : World D) (st : State D) (h : Begun W st) (hfree : st.sh.locked = false) (env : Env) (hexp : st.sh.expire = 0)
    (htwo : 2 ≤ st.sh.items.length) (hval : st.sh.hasValidator = true)
    (hW : ∀ n k t, ∃ env', W.validator n k t = .call env' (.setValidator false) fun _ => .answer true) :
    ∃ st', Ends W st env .verify (.panic st') ∧ st'.sh.items = st.sh.items ∧ st'.sh.locked = false := by
  have hg := begun_good h
  have hclean : (CacheConc.clean st.sh env 0).1 = st.sh := by
    simp [CacheConc.clean, hexp]
    rw [← hexp]
  have hc := clean_ok hg hfree env (p := 0) (by decide)
  rw [hclean] at hc
  have hmap : ∀ n hv, mapOf { st with asked := n, sh := { st.sh with hasValidator := hv } } st.left.length = st.sh.items := by intro n hv; simp [mapOf]
  have hmem : ∀ p ∈ st.sh.items, st.sh.items.get p.1 = some p.2 := fun p hp => AMap.get_of_mem hg.nodup hp
  have hlook : ∀ k id, st.sh.items.get k = some id → ∃ e, st.sh.heap[id]? = some e := fun k id hk => by
    obtain ⟨e, he, _⟩ := hg.items k id hk; exact ⟨e, he⟩
  obtain ⟨p0, hp0⟩ : ∃ p, p ∈ st.sh.items := by
    match hi : st.sh.items with
    | [] => rw [hi] at htwo; simp at htwo
    | p :: _ => exact ⟨p, by simp⟩
  -- first iteration
  obtain ⟨⟨k, id⟩, hq⟩ := rangeNext_forced (W := W) (st := st) (m := st.left.length) (done := []) hp0
    (by rw [show mapOf st st.left.length = st.sh.items from hmap st.asked st.sh.hasValidator]; exact hmem _ hp0)
  have hk := rangeNext_get hq
  rw [show mapOf st st.left.length = st.sh.items from hmap st.asked st.sh.hasValidator] at hk
  obtain ⟨e, he⟩ := hlook k id hk
  obtain ⟨env1, h1⟩ := hW (st.asked + 1) k e.ctime
  -- second iteration
  obtain ⟨p1, hp1⟩ : ∃ p, p ∈ st.sh.items.erase (k, id) := by
    match hi : st.sh.items.erase (k, id) with
    | [] =>
      have := List.length_erase_of_mem (AMap.mem_of_get hk)
      rw [hi] at this
      simp at this; omega
    | p :: _ => exact ⟨p, by simp⟩
  obtain ⟨⟨k2, id2⟩, hq2⟩ := rangeNext_forced (W := W) (st := { st with asked := st.asked + 1 + 1, sh := { st.sh with hasValidator := false } })
    (m := st.left.length) (done := [(k, id)]) hp1 (by rw [hmap]; exact hmem _ (List.mem_of_mem_erase hp1))
  have hk2 := rangeNext_get hq2
  rw [hmap] at hk2
  obtain ⟨e2, he2⟩ := hlook k2 id2 hk2
  refine ⟨{ st with asked := st.asked + 1 + 1 + 1, sh := { st.sh with hasValidator := false } }, ⟨nofun, 3, ?_⟩, rfl, hfree⟩
  unfold exec
  dsimp only
  unfold verify
  rw [hc, Ran.bind_ret]
  dsimp only
  rw [if_pos hval]
  rw [verifyLoop, hq]
  dsimp only
  rw [he]
  dsimp only
  have ha : ask W (exec W 2) { st with asked := st.asked + 1 } k e.ctime =
      .ret { st with asked := st.asked + 1 + 1, sh := { st.sh with hasValidator := false } } true := by
    unfold ask
    dsimp only
    rw [if_pos hval, h1]
    rfl
  rw [ha, Ran.bind_ret]
  dsimp only
  rw [if_neg (by simp), verifyLoop, hq2]
  dsimp only
  rw [he2]
  rfl

/-! ## Cases -/

/-- Time stands still. -/
def stop : Env := { clk := fun _ => 0, clkAt := fun _ => 0, valid := fun _ _ => true }

/-- What a run shows: the answers, the keys and the data of the entries at the end, the pile, and whether the mutex is locked. -/
def shown (r : Ran Nat (List (Option (Out Nat)))) : Option (List (Option (Out Nat)) × List (Str × Option Nat) × List Str × Bool) :=
  match r with
  | .ret st outs => some (outs, st.sh.items.map (fun p => (p.1, (st.sh.heap[p.2]?).map Entry.data)), st.sh.pile, st.sh.locked)
  | _ => none

/-- Two entries, a validator is installed, key "a" is read, then everything is verified. -/
def story : List (Env × Op Nat) := [(stop, .set b!"a" 1), (stop, .set b!"b" 2), (stop, .setValidator true), (stop, .get b!"a"), (stop, .get b!"a"), (stop, .verify)]

/-- The first invocation refreshes and answers true. -/
def renew : World Nat where
  validator n k _ := if n = 0 then refresh stop k 10 true else .answer true
  order _ := none

example : shown (run renew 5 (new 0 0) story) =
    some ([some .unit, some .unit, some .unit, some (.got (some 1) false), some (.got (some 10) false), some (.num 0)],
      [(b!"a", some 10), (b!"b", some 2)], [b!"b", b!"a"], false) := by rfl

/-- The first invocation refreshes and answers false. -/
def renewNo : World Nat where
  validator n k _ := if n = 0 then refresh stop k 10 false else .answer true
  order _ := none

example : shown (run renewNo 5 (new 0 0) story) =
    some ([some .unit, some .unit, some .unit, some (.got none true), some (.got none false), some (.num 0)], [(b!"b", some 2)], [b!"b"], false) := by rfl

/-- The first invocation panics after it has deleted the other key; the calls after that go on. -/
def breakOff : World Nat where
  validator n _ _ := if n = 0 then .call stop (.del b!"b") fun _ => .panic else .answer true
  order _ := none

example : shown (run breakOff 5 (new 0 0) story) =
    some ([some .unit, some .unit, some .unit, none, some (.got (some 1) false), some (.num 0)], [(b!"a", some 1)], [b!"a"], false) := by rfl

/-- Every invocation empties the cache and answers false. -/
def wipe : World Nat where
  validator _ _ _ := .call stop .flush fun _ => .answer false
  order _ := none

/-- The loop of Verify goes on over the map that Flush has left: it counts two deletions. The keys stay in the pile. -/
example : shown (run wipe 5 (new 0 0) [(stop, .set b!"a" 1), (stop, .set b!"b" 2), (stop, .setValidator true), (stop, .verify), (stop, .count)]) =
    some ([some .unit, some .unit, some .unit, some (.num 2), some (.num 0)], [], [b!"a", b!"b"], false) := by rfl

/-- The first invocation cleans with 200 percent and recovers from the panic: the Get that asked it returns, everything after it blocks. -/
def greedy : World Nat where
  validator n _ _ := if n = 0 then .call stop (.clean 200) fun _ => .answer true else .answer true
  order _ := none

example : shown (run greedy 5 (new 0 0) (story.take 4)) =
    some ([some .unit, some .unit, some .unit, some (.got (some 1) false)], [], [b!"b", b!"a"], true) := by rfl
example : run greedy 5 (new 0 0) story = .stuck := by rfl

/-- `C101_after_a_panic_of_clean_all_calls_block` applies to a new cache with one entry: Clean(200) panics. -/
example : ∃ st st', Begun renew st ∧ Ends renew st stop (.clean 200) (.panic st') ∧ st.sh.items.length = 1 :=
  ⟨_, _, ⟨0, 0, [(stop, .set b!"a" 1)], 1, _, rfl⟩, ⟨nofun, 1, rfl⟩, rfl⟩

/-- Every invocation uninstalls the validator. -/
def resign : World Nat where
  validator _ _ _ := .call stop (.setValidator false) fun _ => .answer true
  order _ := none

/-- Get is fine with it, Verify panics. -/
example : shown (run resign 5 (new 0 0) [(stop, .set b!"a" 1), (stop, .set b!"b" 2), (stop, .setValidator true), (stop, .get b!"a"),
    (stop, .setValidator true), (stop, .verify), (stop, .count)]) =
    some ([some .unit, some .unit, some .unit, some (.got (some 1) false), some .unit, none, some (.num 2)],
      [(b!"a", some 1), (b!"b", some 2)], [b!"b", b!"a"], false) := by rfl

/-- Validators that refresh are calm and gentle, and so is the story: `C101_no_call_blocks` and `C101_only_validators_panic` apply to it. -/
example : (∀ n k t, Calm (renew.validator n k t)) ∧ (∀ n k t, Gentle (breakOff.validator n k t)) ∧ ∀ c ∈ story, Mild c.2 := by
  refine ⟨?_, ?_, by simp [story, Mild]⟩
  · intro n k t
    simp only [renew]
    split <;> simp [refresh, Calm, Mild]
  · intro n k t
    simp only [breakOff]
    split <;> simp [Gentle, Mild]

/-- The hypotheses of `C101_refreshed_data_are_not_returned` are met by the state after three calls. -/
example : ∃ st, Begun renew st ∧ st.sh.locked = false ∧ st.sh.items.get b!"a" = some 0 ∧ st.sh.heap[0]? = some ⟨0, 0, 1⟩ ∧ st.sh.expire = 0 ∧
    st.sh.maxitems ≤ 0 ∧ st.sh.hasValidator = true ∧ renew.validator st.asked b!"a" 0 = refresh stop b!"a" 10 true := by
  refine ⟨(match run renew 1 (new 0 0) (story.take 3) with | .ret st _ => st | _ => new 0 0), ⟨0, 0, story.take 3, 1, _, rfl⟩, ?_⟩
  refine ⟨by decide, by decide, by decide, by decide, by decide, by decide, rfl⟩

/-- Every invocation reads its own key. -/
def selfish : World Nat where
  validator _ k _ := .call stop (.get k) fun _ => .answer true
  order _ := none

/-- The hypotheses of `C101_get_of_own_key_never_ends` are met. -/
example : ∃ st, Begun selfish st ∧ Endless selfish st stop (.get b!"a") := by
  refine ⟨(match run selfish 1 (new 0 0) (story.take 3) with | .ret st _ => st | _ => new 0 0), ⟨0, 0, story.take 3, 1, _, rfl⟩, ?_⟩
  exact C101_get_of_own_key_never_ends selfish _ (by decide) stop b!"a" 0 ⟨0, 0, 1⟩ (by decide) (by decide) (by decide) (fun n => ⟨stop, _, rfl⟩)

end Xcore.V1.CacheValidator
