import Verif.Proof.CacheValidatorPlain

/-!
# Property C98: validators that use the cache themselves, or panic

The model is `Verif/Model/CacheValidator.lean`: an invocation of the validator is a program (`Script`) that may make calls on the same cache,
recover from their panics, and ends with an answer or a panic. The specification is `Verif/Spec/CacheValidator.lean`.
-/

namespace Xcore.CacheValidator

open Cache CacheConc Spec CacheConc.Spec

variable {D : Type}

/-- C98. Whatever validators do, calls on the cache included, and whether or not they panic: no call on the cache blocks for ever, neither
those of the validators nor those made afterwards. -/
theorem C98_no_call_blocks (W : World D) (m e : Int) (h : List (Env × Op D)) (f : Nat) : run W f (new m e) h ≠ .stuck := by
  intro hr
  have := fine_run W f h (new m e) (Good.new m e)
  rw [hr] at this
  exact this

/-- C98. Whatever validators do: as long as they do not panic and do not uninstall themselves, and percentages are at most 100, nothing
panics. -/
theorem C98_only_validators_panic (W : World D) (hW : ∀ n k t, Calm (W.validator n k t)) (m e : Int) (h : List (Env × Op D))
    (hm : ∀ c ∈ h, Mild c.2) (f : Nat) (st : State D) (outs : List (Option (Out D))) (hr : run W f (new m e) h = .ret st outs) : none ∉ outs :=
  run_no_panic hW h _ _ _ (Good.new m e) hm hr

/-- C98. Whatever validators do, meanwhile and before: data that Get returns are those of the last Set under this key *before* the Get
started. What the validator stores while it is asked is not returned. -/
theorem C98_get_returns_last_set_before (W : World D) (st st' : State D) (h : Begun W st) (env : Env) (k : Str) (d : D) (b : Bool)
    (hr : Ends W st env (.get k) (.ret st' (.got (some d) b))) : b = false ∧ lastSet st.sets k = some d := by
  obtain ⟨_, f, hf⟩ := hr
  cases f with
  | zero => cases hf
  | succ f => exact get_data (begun_good h) hf (fine_exec W f)

/-- C98. Whatever validators did, no entry has become impossible to evict: `Clean(100)`, repeated often enough, empties the cache. -/
theorem C98_nothing_escapes_eviction (W : World D) (st : State D) (h : Begun W st) (env : Env) (f : Nat) :
    ∃ n st' outs, run W (f + 1) st (List.replicate n (env, .clean 100)) = .ret st' outs ∧ none ∉ outs ∧ st'.sh.items = [] := by
  have hg := begun_good h
  clear h
  generalize hl : st.sh.pile.length = l
  induction l using Nat.strongRecOn generalizing st with
  | _ l ih =>
    have h1 := fine_clean hg env 100
    have hx : exec W (f + 1) st env (.clean 100) = _ := congrArg (Ran.map Out.num) (clean_ok hg env (p := 100) (by decide))
    rw [clean_ok hg env (by decide)] at h1
    have h2 : (cleanNum (swept st.sh env).length 100).toNat = (swept st.sh env).length := by
      unfold cleanNum; rw [Int.mul_tdiv_cancel _ (by omega)]; rfl
    have h3 := swept_length st.sh env
    have h4 := hg.tracked.length_le
    rcases Nat.eq_zero_or_pos (swept st.sh env).length with h0 | h0
    · refine ⟨1, { st with sh := (CacheConc.mClean st.sh env 100).1 }, [some (.num ((st.sh.pile.length : Int) - (CacheConc.mClean st.sh env 100).1.pile.length))], ?_, by simp, ?_⟩
      · rw [List.replicate_one, run, hx]; rfl
      · show (CacheConc.mClean st.sh env 100).1.items = []
        rw [CacheConc.mClean_items, List.eq_nil_of_length_eq_zero h0]; rfl
    · have h5 : (CacheConc.mClean st.sh env 100).1.pile.length < l := by
        rw [CacheConc.mClean_pile, h2, if_pos (by omega), List.length_drop]; omega
      obtain ⟨n, st', outs, h6, h7, h8⟩ := ih _ h5 { st with sh := (CacheConc.mClean st.sh env 100).1 } h1.1 rfl
      refine ⟨n + 1, st', some (.num ((st.sh.pile.length : Int) - (CacheConc.mClean st.sh env 100).1.pile.length)) :: outs, ?_, by simp [h7], h8⟩
      rw [List.replicate_succ, run, hx]
      dsimp only [Ran.map, Ran.bind]
      rw [h6]

/-- C98. If every invocation of the validator just answers, the same for the same key and time, then the cache behaves as with the validator
of the sequential model (`Verif/Model/Cache.lean`), about which C01 to C11 are proved; in particular every call ends. -/
theorem C98_validators_that_only_answer (W : World D) (v : Str → Int → Bool) (hW : ∀ n k t, W.validator n k t = .answer (v k t)) (m e : Int)
    (h : List (Env × Op D)) (hv : ∀ x ∈ h, x.1.valid = v) :
    ∃ f st outs, run W f (new m e) h = .ret st outs ∧ Holds st.sh (Cache.run (Cache.new m e) h).1 ∧
      outs.map outOf = (Cache.run (Cache.new m e) h).2 := by
  obtain ⟨f, st, outs, h1, h2, h3⟩ := same_run hW h (new m e) (Cache.new m e) (Good.new m e)
    ⟨⟨rfl, rfl, rfl, rfl, .nil⟩, (Good.new m e).tracked, by simp [new]⟩ hv
  exact ⟨f, st, outs, h1, h2.holds, h3⟩

/-- C98. How a call ends does not depend on the number of steps the model grants. -/
theorem C98_steps_do_not_matter (W : World D) (st : State D) (env : Env) (op : Op D) (r r' : Ran D (Out D)) (h : Ends W st env op r)
    (h' : Ends W st env op r') : r = r' ∧ ¬ Endless W st env op := by
  obtain ⟨h1, f, hf⟩ := h
  obtain ⟨h2, g, hg⟩ := h'
  refine ⟨?_, fun he => h1 (by rw [← hf]; exact he f)⟩
  have a := le_exec_add W f g st env op
  have b := le_exec_add W g f st env op
  rw [hf] at a
  rw [hg, Nat.add_comm] at b
  rw [a.resolve_left h1, b.resolve_left h2]

/-! ## What may surprise -/

theorem ask_refresh {W : World D} {f : Nat} {st : State D} (hg : Good st) {k : Str} {t : Int} {env' : Env} {d' : D} {b : Bool}
    (hval : st.sh.hasValidator = true) (hW : W.validator st.asked k t = refresh env' k d' b) :
    ask W (exec W (f + 1)) st k t =
      .ret { st with sh := (CacheConc.set st.sh env' k d').1, asked := st.asked + 1, sets := st.sets ++ [(k, d')] } b := by
  unfold ask
  rw [if_pos hval, hW]
  unfold refresh invoke
  have : exec W (f + 1) { st with asked := st.asked + 1 } env' (.set k d') =
      .ret { st with sh := (CacheConc.set st.sh env' k d').1, asked := st.asked + 1, sets := st.sets ++ [(k, d')] } .unit := by
    unfold exec
    dsimp only
    rw [set_free (by exact hg.free)]
    rw [if_pos (set_ok hg.tracked env' k d')]
  rw [this]
  rfl

theorem set_unlimited {s : Shared D} (hm : s.maxitems ≤ 0) (env : Env) (k : Str) (d : D) : (CacheConc.set s env k d).1 = setRaw s env k d := by
  unfold CacheConc.set
  dsimp only
  rw [if_neg]
  intro h
  have h1 : 0 < s.maxitems := h.1
  omega

/-- C98. A validator that refreshes the entry with Set and then answers true: the Get that asked it still returns the *old* data. The new data
are in the cache. -/
theorem C98_refreshed_data_are_not_returned (W : World D) (st : State D) (h : Begun W st) (env env' : Env) (k : Str) (id : Nat) (e : Entry D) (d' : D)
    (hid : st.sh.items.get k = some id) (he : st.sh.heap[id]? = some e) (httl : e.ttl = 0) (hexp : st.sh.expire = 0)
    (hm : st.sh.maxitems ≤ 0) (hval : st.sh.hasValidator = true) (hW : W.validator st.asked k e.ctime = refresh env' k d' true) :
    ∃ st', Ends W st env (.get k) (.ret st' (.got (some e.data) false)) ∧
      (st'.sh.items.get k).bind (fun id => st'.sh.heap[id]?) = some { ctime := env'.clk 0, rtime := env'.clk 1, ttl := 0, data := d' } := by
  have hg := begun_good h
  refine ⟨{ st with
      sh := { setRaw st.sh env' k d' with
        heap := modify (setRaw st.sh env' k d').heap id (fun e => { e with rtime := env.clk 2 }),
        pile := removeFromPile (setRaw st.sh env' k d').pile k ++ [k] },
      asked := st.asked + 1, sets := st.sets ++ [(k, d')] }, ⟨nofun, 2, ?_⟩, ?_⟩
  · unfold exec
    dsimp only
    unfold get
    rw [mGet_free hg.free, Ran.bind_ret, hid]
    dsimp only
    rw [he]
    dsimp only
    rw [if_neg (by simp [httl]), if_pos hval, ask_refresh hg hval hW, Ran.bind_ret, set_unlimited hm]
    dsimp only
    rw [if_neg (by simp), if_neg (by simp [CacheConc.setRaw, hexp]), touch_free (by exact hg.free)]
  · dsimp only
    simp only [CacheConc.setRaw, AMap.get_set_self, Option.bind_some]
    have hlt : id < st.sh.heap.length := (List.getElem?_eq_some_iff.1 he).1
    unfold CacheConc.modify
    rw [List.getElem?_modify]
    have hne : id ≠ st.sh.heap.length := by omega
    simp [hne]

/-- C98. A validator that refreshes the entry with Set and then answers false (the old data were not valid): Get deletes the *new* entry. -/
theorem C98_refreshed_data_are_deleted (W : World D) (st : State D) (h : Begun W st) (env env' : Env) (k : Str) (id : Nat) (e : Entry D) (d' : D)
    (hid : st.sh.items.get k = some id) (he : st.sh.heap[id]? = some e) (httl : e.ttl = 0)
    (hval : st.sh.hasValidator = true) (hW : W.validator st.asked k e.ctime = refresh env' k d' false) :
    ∃ st', Ends W st env (.get k) (.ret st' (.got none true)) ∧ st'.sh.items.get k = none ∧ lastSet st'.sets k = some d' := by
  have hg := begun_good h
  refine ⟨{ st with sh := CacheConc.del (CacheConc.set st.sh env' k d').1 k, asked := st.asked + 1, sets := st.sets ++ [(k, d')] }, ⟨nofun, 2, ?_⟩, ?_⟩
  · unfold exec
    dsimp only
    unfold get
    rw [mGet_free hg.free, Ran.bind_ret, hid]
    dsimp only
    rw [he]
    dsimp only
    rw [if_neg (by simp [httl]), if_pos hval, ask_refresh hg hval hW, Ran.bind_ret, if_pos (by simp), getDrop_free (by exact hg.free)]
  · dsimp only
    refine ⟨?_, by simp [lastSet_append]⟩
    simp [CacheConc.del, AMap.get_del_self]

/-- C98. A validator that calls Get with the key it is asked about never ends, and so the Get that asks it: nothing stops the recursion. -/
theorem C98_get_of_own_key_never_ends (W : World D) (st : State D) (h : Begun W st) (env : Env) (k : Str) (id : Nat) (e : Entry D)
    (hid : st.sh.items.get k = some id) (he : st.sh.heap[id]? = some e) (httl : e.ttl = 0) (hval : st.sh.hasValidator = true)
    (hW : ∀ n, ∃ env' next, W.validator n k e.ctime = .call env' (.get k) next) : Endless W st env (.get k) := by
  have hg := begun_good h
  intro f
  have key : ∀ (f n : Nat) (env : Env), exec W f { st with asked := n } env (.get k) = .deep := by
    intro f
    induction f with
    | zero => intro n env; rfl
    | succ f ih =>
      intro n env
      unfold exec
      dsimp only
      unfold get
      rw [mGet_free (by exact hg.free), Ran.bind_ret]
      dsimp only
      rw [hid]
      dsimp only
      rw [he]
      dsimp only
      rw [if_neg (by simp [httl]), if_pos hval]
      obtain ⟨env', next, hn⟩ := hW n
      unfold ask
      dsimp only
      rw [if_pos hval, hn]
      unfold invoke
      rw [ih]
      rfl
  exact key f st.asked env

/-- C98. A validator that panics at once: Get panics, and nothing in the cache has changed. -/
theorem C98_panic_in_get (W : World D) (st : State D) (h : Begun W st) (env : Env) (k : Str) (id : Nat) (e : Entry D)
    (hid : st.sh.items.get k = some id) (he : st.sh.heap[id]? = some e) (httl : e.ttl = 0) (hval : st.sh.hasValidator = true)
    (hW : W.validator st.asked k e.ctime = .panic) : ∃ st', Ends W st env (.get k) (.panic st') ∧ st'.sh = st.sh ∧ st'.mutex = .free := by
  have hg := begun_good h
  refine ⟨{ st with asked := st.asked + 1 }, ⟨nofun, 1, ?_⟩, rfl, hg.free⟩
  unfold exec
  dsimp only
  unfold get
  rw [mGet_free hg.free, Ran.bind_ret, hid]
  dsimp only
  rw [he]
  dsimp only
  rw [if_neg (by simp [httl]), if_pos hval]
  unfold ask
  rw [if_pos hval, hW]
  rfl

theorem rangeNext_forced {W : World D} {st : State D} {m : Nat} {todo done : List (Str × Nat)} {p : Str × Nat} (hp : p ∈ todo)
    (hget : (mapOf st m).get p.1 = some p.2) : ∃ q, rangeNext W st m todo done = some q := by
  have hf : ∃ q, todo.find? (fun p => (mapOf st m).get p.1 == some p.2) = some q := by
    cases hx : todo.find? (fun p => (mapOf st m).get p.1 == some p.2) with
    | some q => exact ⟨q, rfl⟩
    | none =>
      rw [List.find?_eq_none] at hx
      exact absurd (by simpa using hget) (hx p hp)
  unfold rangeNext
  dsimp only
  split
  · exact hf
  · split
    · split
      · exact hf
      · exact ⟨_, rfl⟩
    · exact hf

/-- C98. A validator that uninstalls itself (`c.Validator = nil`) while Verify runs: Verify looks at the field only once before its loop,
so with at least two entries it calls a nil function and panics. -/
theorem C98_uninstalled_during_verify (W : World D) (st : State D) (h : Begun W st) (env : Env) (hexp : st.sh.expire = 0)
    (htwo : 2 ≤ st.sh.items.length) (hval : st.sh.hasValidator = true)
    (hW : ∀ n k t, ∃ env', W.validator n k t = .call env' (.setValidator false) fun _ => .answer true) :
    ∃ st', Ends W st env .verify (.panic st') ∧ st'.sh.items = st.sh.items ∧ st'.mutex = .free := by
  have hg := begun_good h
  have hclean : (CacheConc.mClean st.sh env 0).1 = st.sh := by
    simp only [CacheConc.mClean, hexp, ne_eq, not_true_eq_false, if_false, cleanNum, Int.mul_zero, Int.zero_tdiv, Int.toNat_zero, evictLoop]
    rw [← hexp]
  have hc := clean_ok hg env (p := 0) (by decide)
  rw [hclean] at hc
  have hmap : ∀ n hv, mapOf { st with asked := n, sh := { st.sh with hasValidator := hv } } st.left.length = st.sh.items := by intro n hv; simp [mapOf]
  have hmem : ∀ p ∈ st.sh.items, st.sh.items.get p.1 = some p.2 := fun p hp => AMap.get_of_mem hg.tracked.nodup hp
  have hlook : ∀ k id, st.sh.items.get k = some id → ∃ e, st.sh.heap[id]? = some e := fun k id hk => by
    obtain ⟨e, he, _⟩ := hg.items k id hk; exact ⟨e, he⟩
  obtain ⟨p0, hp0⟩ : ∃ p, p ∈ st.sh.items := by
    match hi : st.sh.items with
    | [] => rw [hi] at htwo; simp at htwo
    | p :: _ => exact ⟨p, by simp⟩
  -- first iteration
  obtain ⟨⟨k, id⟩, hq⟩ := rangeNext_forced (W := W) (st := st) (m := st.left.length) (done := []) hp0
    (by rw [show mapOf st st.left.length = st.sh.items from hmap st.asked st.sh.hasValidator]; exact hmem _ hp0)
  have hk := rangeNext_get hq
  rw [show mapOf st st.left.length = st.sh.items from hmap st.asked st.sh.hasValidator] at hk
  obtain ⟨e, he⟩ := hlook k id hk
  obtain ⟨env1, h1⟩ := hW (st.asked + 1) k e.ctime
  -- second iteration
  obtain ⟨p1, hp1⟩ : ∃ p, p ∈ st.sh.items.erase (k, id) := by
    match hi : st.sh.items.erase (k, id) with
    | [] =>
      have := List.length_erase_of_mem (AMap.mem_of_get hk)
      rw [hi] at this
      simp at this; omega
    | p :: _ => exact ⟨p, by simp⟩
  obtain ⟨⟨k2, id2⟩, hq2⟩ := rangeNext_forced (W := W) (st := { st with asked := st.asked + 1 + 1, sh := { st.sh with hasValidator := false } })
    (m := st.left.length) (done := [(k, id)]) hp1 (by rw [hmap]; exact hmem _ (List.mem_of_mem_erase hp1))
  have hk2 := rangeNext_get hq2
  rw [hmap] at hk2
  obtain ⟨e2, he2⟩ := hlook k2 id2 hk2
  refine ⟨{ st with asked := st.asked + 1 + 1 + 1, sh := { st.sh with hasValidator := false } }, ⟨nofun, 3, ?_⟩, rfl, hg.free⟩
  unfold exec
  dsimp only
  unfold verify
  rw [hc, Ran.bind_ret]
  dsimp only
  rw [if_pos hval]
  rw [verifyLoop, hq]
  dsimp only
  rw [he]
  dsimp only
  have ha : ask W (exec W 2) { st with asked := st.asked + 1 } k e.ctime =
      .ret { st with asked := st.asked + 1 + 1, sh := { st.sh with hasValidator := false } } true := by
    unfold ask
    dsimp only
    rw [if_pos hval, h1]
    rfl
  rw [ha, Ran.bind_ret]
  dsimp only
  rw [if_neg (by simp), verifyLoop, hq2]
  dsimp only
  rw [he2]
  rfl

/-! ## Cases -/

/-- Time stands still. -/
def stop : Env := { clk := fun _ => 0, clkAt := fun _ => 0, valid := fun _ _ => true }

/-- What a run shows: the answers, the keys and the data of the entries at the end, and the state of the mutex. -/
def shown (r : Ran Nat (List (Option (Out Nat)))) : Option (List (Option (Out Nat)) × List (Str × Option Nat) × Mutex) :=
  match r with
  | .ret st outs => some (outs, st.sh.items.map (fun p => (p.1, (st.sh.heap[p.2]?).map Entry.data)), st.mutex)
  | _ => none

/-- Two entries, a validator is installed, key "a" is read, then everything is verified. -/
def story : List (Env × Op Nat) := [(stop, .set b!"a" 1), (stop, .set b!"b" 2), (stop, .setValidator true), (stop, .get b!"a"), (stop, .get b!"a"), (stop, .verify)]

/-- The first invocation refreshes and answers true. -/
def renew : World Nat where
  validator n k _ := if n = 0 then refresh stop k 10 true else .answer true
  order _ := none

example : shown (run renew 5 (new 0 0) story) =
    some ([some .unit, some .unit, some .unit, some (.got (some 1) false), some (.got (some 10) false), some (.num 0)],
      [(b!"a", some 10), (b!"b", some 2)], .free) := by rfl

/-- The first invocation refreshes and answers false. -/
def renewNo : World Nat where
  validator n k _ := if n = 0 then refresh stop k 10 false else .answer true
  order _ := none

example : shown (run renewNo 5 (new 0 0) story) =
    some ([some .unit, some .unit, some .unit, some (.got none true), some (.got none false), some (.num 0)], [(b!"b", some 2)], .free) := by rfl

/-- The first invocation panics after it has deleted the other key; the calls after that go on. -/
def breakOff : World Nat where
  validator n _ _ := if n = 0 then .call stop (.del b!"b") fun _ => .panic else .answer true
  order _ := none

example : shown (run breakOff 5 (new 0 0) story) =
    some ([some .unit, some .unit, some .unit, none, some (.got (some 1) false), some (.num 0)], [(b!"a", some 1)], .free) := by rfl

/-- Every invocation reads its own key. -/
def selfish : World Nat where
  validator _ k _ := .call stop (.get k) fun _ => .answer true
  order _ := none

example : ∀ f, shown (run selfish f (new 0 0) story) = none := by
  intro f
  rcases f with _ | _ | f
  · decide
  · decide
  · have h := C98_get_of_own_key_never_ends selfish
      (match run selfish 1 (new 0 0) (story.take 3) with | .ret st _ => st | _ => new 0 0) ⟨0, 0, story.take 3, 1, _, rfl⟩ stop b!"a" 0
      ⟨0, 0, 0, 1⟩ (by decide) (by decide) rfl (by decide) (fun n => ⟨stop, _, rfl⟩) (f + 2)
    have : run selfish (f + 2) (new 0 0) story = (match exec selfish (f + 2)
        (match run selfish 1 (new 0 0) (story.take 3) with | .ret st _ => st | _ => new 0 0) stop (.get b!"a") with
        | .deep => .deep | _ => run selfish (f + 2) (new 0 0) story) := by
      rw [h]
      have h2 : run selfish (f + 2) (new 0 0) story = (run selfish (f + 2) (new 0 0) (story.take 3)).bind fun st1 outs =>
          (run selfish (f + 2) st1 (story.drop 3)).map (outs ++ ·) := run_append selfish (f + 2) (story.drop 3) (story.take 3) (new 0 0)
      rw [h2]
      have h3 : run selfish (f + 2) (new 0 0) (story.take 3) = .ret
        (match run selfish 1 (new 0 0) (story.take 3) with | .ret st _ => st | _ => new 0 0) [some .unit, some .unit, some .unit] := rfl
      rw [h3, Ran.bind_ret]
      have h4 : story.drop 3 = (stop, .get b!"a") :: story.drop 4 := rfl
      rw [h4, run, h]
      rfl
    rw [this, h]
    rfl

/-- Every invocation uninstalls the validator. -/
def resign : World Nat where
  validator _ _ _ := .call stop (.setValidator false) fun _ => .answer true
  order _ := none

/-- Get is fine with it, Verify panics. -/
example : shown (run resign 5 (new 0 0) [(stop, .set b!"a" 1), (stop, .set b!"b" 2), (stop, .setValidator true), (stop, .get b!"a"),
    (stop, .setValidator true), (stop, .verify), (stop, .count)]) =
    some ([some .unit, some .unit, some .unit, some (.got (some 1) false), some .unit, none, some (.num 2)],
      [(b!"a", some 1), (b!"b", some 2)], .free) := by rfl

/-- Every invocation empties the cache and answers false. -/
def wipe : World Nat where
  validator _ _ _ := .call stop .flush fun _ => .answer false
  order _ := none

/-- The loop of Verify goes on over the map that Flush has left: it counts two deletions, though after the first step the cache is empty. -/
example : shown (run wipe 5 (new 0 0) [(stop, .set b!"a" 1), (stop, .set b!"b" 2), (stop, .setValidator true), (stop, .verify), (stop, .count)]) =
    some ([some .unit, some .unit, some .unit, some (.num 2), some (.num 0)], [], .free) := by rfl

/-- Validators that refresh are calm, and so is the story: `C98_only_validators_panic` applies to it. -/
example : (∀ n k t, Calm (renew.validator n k t)) ∧ ∀ c ∈ story, Mild c.2 := by
  refine ⟨?_, by simp [story, Mild]⟩
  intro n k t
  simp only [renew]
  split <;> simp [refresh, Calm, Mild]

/-- The hypotheses of `C98_refreshed_data_are_not_returned` and of `C98_uninstalled_during_verify` are met by the state after three calls. -/
example : ∃ st, Begun renew st ∧ st.sh.items.get b!"a" = some 0 ∧ st.sh.heap[0]? = some ⟨0, 0, 0, 1⟩ ∧ st.sh.expire = 0 ∧ st.sh.maxitems ≤ 0 ∧
    st.sh.hasValidator = true ∧ renew.validator st.asked b!"a" 0 = refresh stop b!"a" 10 true ∧ 2 ≤ st.sh.items.length := by
  refine ⟨(match run renew 1 (new 0 0) (story.take 3) with | .ret st _ => st | _ => new 0 0), ⟨0, 0, story.take 3, 1, _, rfl⟩, ?_⟩
  refine ⟨by decide, by decide, by decide, by decide, by decide, rfl, by decide⟩

end Xcore.CacheValidator
