import Verif.Proof.CacheRace

/-! # C104: the data races of a cache -/

namespace Xcore.CacheConc

open Cache

variable {D : Type}

/-- C104. In every state that goroutines using one cache can reach, two steps race (Spec/CacheRace.lean: they access the same memory cell at
the same time, one of them writes, and the mutex does not keep them apart) exactly if they are of one of the four kinds: two Gets that store
the time of reading of the same entry, a SetTTL of a key while a Get of it reads the TTL, a change of the map (or its replacement by Flush)
while a Verify with a validator ranges over it, and an assignment to an exported field that the other step uses. -/
theorem C104_races_exactly {m e : Int} {as : List (Act D)} {st : St D} (hr : Run m e as st) (a b : Move D) :
    Race st a b ↔ Concurrent st a b ∧ (Clash st a b ∨ Clash st b a) := by
  obtain ⟨f, hf⟩ := owned_run (owned_init m e) (Inv.init m e) as hr
  exact race_iff hf a b

/-- C104: the mutex keeps two steps apart exactly if one of them edits inside it and the other edits or looks inside it: Counts and the
beginnings of Gets do not wait for one another. -/
theorem C104_what_the_mutex_keeps_apart (a b : Move D) :
    Excludes a.held b.held ↔ Edits a ∧ (Edits b ∨ Peeks b) ∨ Edits b ∧ Peeks a := by
  rcases a with a | _ <;> rcases b with b | _ <;> (try cases a) <;> (try cases b) <;> simp [Excludes, Move.held, Edits, Peeks]

/-- C104: the list of accesses fits the steps of the model: a step changes the content of no cell that it is not listed to write. -/
theorem C104_steps_write_only_their_cells {st st' : St D} (a : Act D) (ha : apply st a = some st') (c : Cell)
    (hc : (c, true) ∉ (Move.act a).cells st) : SameContent st st' c := writes_declared a ha c hc

/-- C104: the list of accesses fits the steps of the model: what a step does depends only on the cells that it is listed to access. In any
other memory in which these cells have the same content (the goroutines being where they are, and the same number of entries having been made)
the step is possible too, the goroutines get where they get here, the same is observed, and the cells that the step writes get the same
content. (Without a validator Verify has no loop.) -/
theorem C104_steps_depend_only_on_their_cells {m e : Int} {as : List (Act D)} {st st1 st2 : St D} (hr : Run m e as st) (a : Act D)
    (ha : apply st a = some st1) (hp : st2.pcs = st.pcs) (hh : st2.sh.heap.length = st.sh.heap.length)
    (hv : ∀ t k ok, a = .verifyPick t k ok → st.sh.hasValidator = true) (hag : Agree st st2 (.act a)) :
    ∃ st2', apply st2 a = some st2' ∧ st2'.pcs = st1.pcs ∧ (∃ new, st1.obs = st.obs ++ new ∧ st2'.obs = st2.obs ++ new) ∧
      ∀ c, (c, true) ∈ (Move.act a).cells st → SameContent st1 st2' c := by
  obtain ⟨f, hf⟩ := owned_run (owned_init m e) (Inv.init m e) as hr
  exact depends_only a ha hp hh hf.since hv hag

/-- C104: the same for Count: it is always possible, and its answer depends only on the cells that it is listed to read. -/
theorem C104_count_depends_only_on_its_cells (st : St D) : (Move.count : Move D).able st = true ∧
    ∀ st2 : St D, Agree st st2 .count → st2.sh.items.length = st.sh.items.length := by
  refine ⟨rfl, fun st2 hag => ?_⟩
  have h1 : st2.left.length = st.left.length := hag .items false (by simp [Move.cells])
  have h2 := hag (.map st.left.length) false (by simp [Move.cells]) st.sh.items (by simp)
  rw [← h1] at h2
  simp only [List.getElem?_append_right (Nat.le_refl _), Nat.sub_self, List.getElem?_cons_zero, Option.some.injEq] at h2
  rw [h2]

/-- C104: programs that are considerate (no Get or SetTTL of a key while a Get of that key is running, no Verify when there is a validator, no
assignment to the fields after the start) never race, whatever the schedule. -/
theorem C104_considerate_programs_never_race {m e : Int} {v : Bool} {st : St D} (hr : ConsiderateRun m e v st) (a b : Move D)
    (ha : Considerate st a) (hb : Considerate st b) : ¬ Race st a b := by
  intro h
  obtain ⟨h1, _, f, h3⟩ := considerate_inv hr
  rcases race_clash h3 h with hc | hc
  · exact h1.no_clash h.1 ha hb hc
  · exact h1.no_clash (concurrent_comm h.1) hb ha hc

/-- C104: two Gets of the same valid entry can always race: from any state, with two idle goroutines, when neither the
TTL nor the expiration has passed and the validator agrees. -/
theorem C104_two_gets_race {st : St D} {k : Str} {id : Nat} {x : Entry D}
    (hk : st.sh.items.get k = some id) (hx : st.sh.heap[id]? = some x) {t t' : Nat} (hne : t ≠ t') (h1 : st.pcs t = .idle)
    (h2 : st.pcs t' = .idle) (now : Int) (httl : x.ttl = 0 ∨ now ≤ x.ctime + x.ttl)
    (hexp : st.sh.expire = 0 ∨ now ≤ x.ctime + st.sh.expire) :
    ∃ st', runActs st [.getStart t k, .checkTTL t now, .checkVal t true, .checkExp t now, .getStart t' k, .checkTTL t' now,
        .checkVal t' true, .checkExp t' now] = some st' ∧
      Race st' (.act (.writeRtime t now)) (.act (.writeRtime t' now)) := by
  have c1 : ¬ (x.ttl ≠ 0 ∧ past x.ctime x.ttl now = true) := by
    rintro ⟨q1, q2⟩; simp only [past, decide_eq_true_eq] at q2; omega
  have c2 : ¬ (st.sh.expire ≠ 0 ∧ past x.ctime st.sh.expire now = true) := by
    rintro ⟨q1, q2⟩; simp only [past, decide_eq_true_eq] at q2; omega
  have hne' : t' ≠ t := fun h => hne h.symm
  refine ⟨{ st with pcs := upd (upd (upd (upd (upd (upd (upd (upd st.pcs t (.loaded k id)) t (.ttlOk k id)) t (.valOk k id)) t (.good k id)) t'
    (.loaded k id)) t' (.ttlOk k id)) t' (.valOk k id)) t' (.good k id) }, ?_, ?_⟩
  · simp [runActs, apply, h1, h2, hk, hx, upd, hne', c1, c2]
  · refine ⟨⟨?_, ?_, ?_⟩, by simp [Move.held, Excludes], .rtime id, true, true, ?_, ?_, Or.inl rfl⟩
    · simp [Move.able, apply, upd, hne]
    · simp [Move.able, apply, upd]
    · intro s hs hs'; simp only [Move.owner, Option.some.injEq] at hs hs'; exact hne (hs.trans hs'.symm)
    · simp [Move.cells, upd, hne]
    · simp [Move.cells, upd]

/-- C104: a Get of a present key and a SetTTL of it can always race. -/
theorem C104_get_and_setTTL_race {m e : Int} {as : List (Act D)} {st : St D} (hr : Run m e as st) {k : Str} {id : Nat}
    (hk : st.sh.items.get k = some id) {t : Nat} (h1 : st.pcs t = .idle) (now d : Int) :
    ∃ st', runActs st [.getStart t k] = some st' ∧ Race st' (.act (.checkTTL t now)) (.act (.setTTL k d)) := by
  obtain ⟨x, hx, _⟩ := ((Inv.init m e).run as hr).items k id hk
  refine ⟨{ st with pcs := upd st.pcs t (.loaded k id) }, by simp [runActs, apply, h1, hk], ⟨⟨?_, ?_, ?_⟩, ?_⟩⟩
  · simp only [Move.able, apply, upd, if_true, hx]; split <;> rfl
  · simp [Move.able, apply, hk]
  · intro s _ hs; cases hs
  · exact ⟨by simp [Move.held, Excludes], .ttl id, false, true, by simp [Move.cells, upd], by simp [Move.cells, hk], Or.inr rfl⟩

/-- C104: while a Verify with a validator is in its loop, every Set, Del, Clean and Flush of another goroutine can race with it. -/
theorem C104_verify_races {m e : Int} {as : List (Act D)} {st : St D} (hr : Run m e as st) (hv : st.sh.hasValidator = true) {t : Nat}
    (h1 : st.pcs t = .idle) (env : Env) :
    ∃ st', runActs st [.verifyStart t env] = some st' ∧
      (∀ env' k d, Race st' (.act (.verifyEnd t)) (.act (.set env' k d))) ∧
      (∀ k, Race st' (.act (.verifyEnd t)) (.act (.del k))) ∧
      (∀ env' p, Race st' (.act (.verifyEnd t)) (.act (.clean env' p))) ∧
      Race st' (.act (.verifyEnd t)) (.act .flush) := by
  let st' : St D := { st with
    sh := (mClean st.sh env 0).1, pcs := upd st.pcs t (.verifying st.left.length),
    obs := st.obs ++ if (mClean st.sh env 0).2 then [] else [.panicked 0] }
  have hs : runActs st [.verifyStart t env] = some st' := by simp [runActs, apply, h1, st']
  obtain ⟨f, hf⟩ := owned_run (owned_init m e) (Inv.init m e) as hr
  obtain ⟨f', hf'⟩ := owned_run hf ((Inv.init m e).run as hr) _ hs
  have hv' : st'.sh.hasValidator = true := (mClean_validator _ _ _).trans hv
  have able : Move.able st' (.act (.verifyEnd t)) = true := by simp [Move.able, apply, st', upd]
  have conc : ∀ b : Move D, b.able st' = true → b.owner = none → Concurrent st' (.act (.verifyEnd t)) b :=
    fun b h1 h2 => ⟨able, h1, fun s _ hs => by rw [h2] at hs; cases hs⟩
  refine ⟨st', hs, ?_, ?_, ?_, ?_⟩
  · intro env' k d
    exact (race_iff hf' _ _).2 ⟨conc _ rfl rfl, Or.inr (.loop hv' trivial trivial)⟩
  · intro k
    exact (race_iff hf' _ _).2 ⟨conc _ rfl rfl, Or.inr (.loop hv' trivial trivial)⟩
  · intro env' p
    exact (race_iff hf' _ _).2 ⟨conc _ rfl rfl, Or.inr (.loop hv' trivial trivial)⟩
  · exact (race_iff hf' _ _).2 ⟨conc _ rfl rfl, Or.inr (.flush hv' trivial)⟩

/-- C104: assigning `Maxitems` always races with a Set, assigning `Expire` with a Clean, assigning a field with another assignment to it. -/
theorem C104_assignments_race {m e : Int} {as : List (Act D)} {st : St D} (hr : Run m e as st) (x y : Int) (b c : Bool) (env : Env) (k : Str) (d : D)
    (p : Int) :
    Race st (.act (.setMaxitems x)) (.act (.set env k d)) ∧ Race st (.act (.setExpire x)) (.act (.clean env p)) ∧
      Race st (.act (.setMaxitems x)) (.act (.setMaxitems y)) ∧ Race st (.act (.setExpire x)) (.act (.setExpire y)) ∧
      Race st (.act (.setValidator b)) (.act (.setValidator c)) := by
  obtain ⟨f, hf⟩ := owned_run (owned_init m e) (Inv.init m e) as hr
  refine ⟨(race_iff hf _ _).2 ⟨⟨rfl, rfl, ?_⟩, Or.inl (.field .maxitems trivial trivial)⟩,
    (race_iff hf _ _).2 ⟨⟨rfl, rfl, ?_⟩, Or.inl (.field .expire trivial trivial)⟩,
    (race_iff hf _ _).2 ⟨⟨rfl, rfl, ?_⟩, Or.inl (.field .maxitems trivial trivial)⟩,
    (race_iff hf _ _).2 ⟨⟨rfl, rfl, ?_⟩, Or.inl (.field .expire trivial trivial)⟩,
    (race_iff hf _ _).2 ⟨⟨rfl, rfl, ?_⟩, Or.inl (.field .validator trivial trivial)⟩⟩ <;> (intro s h; cases h)

/-! ## The hypotheses are met -/

/-- A considerate program in which a Get of `a` and a Get of `b` are both about to store the time of reading: they are concurrent, and so is
a Set; none of them race. -/
example : ∃ st : St Nat, ConsiderateRun 10 0 true st ∧
    Concurrent st (.act (.writeRtime 0 7)) (.act (.writeRtime 1 7)) ∧ ¬ Race st (.act (.writeRtime 0 7)) (.act (.writeRtime 1 7)) ∧
    Concurrent st (.act (.writeRtime 0 7)) (.act (.set ⟨fun _ => 9, fun _ => 9, fun _ _ => true⟩ b!"a" 3)) := by
  let env : Env := ⟨fun _ => 5, fun _ => 5, fun _ _ => true⟩
  have step : ∀ {st st' : St Nat} (a : Act Nat), ConsiderateRun 10 0 true st → Considerate st (.act a) → apply st a = some st' →
      ConsiderateRun 10 0 true st' := fun a h1 h2 h3 => .step h1 h2 h3
  have s1 := step (.set env b!"a" 1) .start trivial rfl
  have s2 := step (.set env b!"b" 2) s1 trivial rfl
  have s3 := step (.getStart 0 b!"a") s2 (fun t h => h) rfl
  have s4 := step (.checkTTL 0 6) s3 trivial rfl
  have s5 := step (.checkVal 0 true) s4 trivial rfl
  have s6 := step (.checkExp 0 6) s5 trivial rfl
  have s7 := step (.getStart 1 b!"b") s6 (fun t h => by
    by_cases ht : t = 0
    · subst ht
      have h' : (b!"a" : Str) = b!"b" := h
      exact absurd h' (by decide)
    · simp only [upd, ht, if_false] at h; exact h) rfl
  have s8 := step (.checkTTL 1 6) s7 trivial rfl
  have s9 := step (.checkVal 1 true) s8 trivial rfl
  have s10 := step (.checkExp 1 6) s9 trivial rfl
  exact ⟨_, s10, ⟨rfl, rfl, by simp [Move.owner]⟩, C104_considerate_programs_never_race s10 _ _ trivial trivial, ⟨rfl, rfl, by simp [Move.owner]⟩⟩

/-- Two memories that differ in the fields, in the pile and in the entry of `b`, but not in what the look of a Get of `a` at the TTL needs. -/
example : ∃ st st1 st2 : St Nat,
    Run 10 100 [.set ⟨fun _ => 5, fun _ => 5, fun _ _ => true⟩ b!"a" 1, .set ⟨fun _ => 6, fun _ => 6, fun _ _ => true⟩ b!"b" 2, .getStart 0 b!"a"] st ∧
    apply st (.checkTTL 0 7) = some st1 ∧ st2.pcs = st.pcs ∧ st2.sh.heap.length = st.sh.heap.length ∧ Agree st st2 (.act (.checkTTL 0 7)) ∧
    st2.sh.pile ≠ st.sh.pile ∧ st2.sh.expire ≠ st.sh.expire ∧ st2.sh.heap ≠ st.sh.heap := by
  refine ⟨_, _, ⟨⟨1, 3, true, [(b!"a", 0)], [⟨5, 5, 0, 1⟩, ⟨8, 8, 8, 8⟩], []⟩, [], fun j => if j = 0 then .loaded b!"a" 0 else .idle, []⟩, rfl, rfl, ?_, rfl, ?_,
    by decide, by decide, by decide⟩
  · funext j; rfl
  · intro c w hc
    have : (c, w) = (.ttl 0, false) ∨ (c, w) = (.ctime 0, false) := by
      have h : (c, w) ∈ [(Cell.ttl 0, false), (Cell.ctime 0, false)] := hc
      simpa using h
    rcases this with h | h <;> (cases h; rfl)

/-- A state with an entry, a validator and idle goroutines, as `C104_two_gets_race`, `C104_get_and_setTTL_race` and `C104_verify_races`
want it. -/
example : ∃ st : St Nat, Run 10 100 [.setValidator true, .set ⟨fun _ => 5, fun _ => 5, fun _ _ => true⟩ b!"a" 1, .setTTL b!"a" 20] st ∧
    st.sh.items.get b!"a" = some 0 ∧ st.sh.heap[0]? = some ⟨5, 5, 20, 1⟩ ∧ st.pcs 0 = .idle ∧ st.pcs 1 = .idle ∧
    st.sh.hasValidator = true ∧ (7 : Int) ≤ 5 + 20 ∧ (7 : Int) ≤ 5 + st.sh.expire :=
  ⟨_, rfl, rfl, rfl, rfl, rfl, rfl, by decide, by decide⟩

end Xcore.CacheConc
