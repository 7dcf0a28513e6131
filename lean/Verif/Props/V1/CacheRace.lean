import Verif.Proof.V1.CacheRace

/-! # C105: the data races of a cache of version 1 -/

namespace Xcore.V1.CacheConc

open Xcore.Cache (Env)
open Xcore.V1.Cache (Entry)

variable {D : Type}

/-- C105. In every state that goroutines using one cache of version 1 can reach, two steps race (Spec/V1/CacheRace.lean: they access the same
memory cell at the same time, one of them writes, and not both do it with the mutex locked) exactly if they are of one of the five kinds: the end
of a Get that found its entry, which moves the key in the pile without the mutex, and anything that changes the pile; two Gets that store the time
of reading of the same entry; a change of the map while Set looks at its size or a Verify with a validator ranges over it; its replacement by Flush
meanwhile; and an assignment to an exported field that the other step uses. -/
theorem C105_races_exactly {m e : Int} {as : List (Act D)} {st : St D} (hr : runActs (init m e) as = some st) (a b : Move D) :
    Race st a b ↔ Concurrent st a b ∧ (Clash st a b ∨ Clash st b a) := by
  obtain ⟨f, hf⟩ := owned_run (owned_init m e) (Inv.init m e) as hr
  exact race_iff hf a b

/-- C105: the list of accesses fits the steps of the model: a step changes the content of no cell that it is not listed to write. -/
theorem C105_steps_write_only_their_cells {st st' : St D} (a : Act D) (hab : (Move.act a).able st = true) (ha : apply st a = some st') (c : Cell)
    (hc : ∀ l, ⟨c, true, l⟩ ∉ (Move.act a).cells st) : SameContent st st' c := writes_declared a hab ha c hc

/-- C105: the list of accesses fits the steps of the model: what a step does depends only on the cells that it is listed to access. In any
other memory in which these cells have the same content (the goroutines being where they are, the mutex being as it is, and the same number of
entries having been made) the step is possible too and has the same effect. (Without a validator Verify has no loop.) -/
theorem C105_steps_depend_only_on_their_cells {m e : Int} {as : List (Act D)} {st st1 st2 : St D} (hr : runActs (init m e) as = some st) (a : Act D)
    (hab : (Move.act a).able st = true) (ha : apply st a = some st1) (hp : st2.pcs = st.pcs) (hl : st2.sh.locked = st.sh.locked)
    (hh : st2.sh.heap.length = st.sh.heap.length) (hv : ∀ t k ok, a = .verifyPick t k ok → st.sh.hasValidator = true)
    (hag : Agree st st2 (.act a)) : ∃ st2', apply st2 a = some st2' ∧ SameEffect st st2 st1 st2' a := by
  obtain ⟨f, hf⟩ := owned_run (owned_init m e) (Inv.init m e) as hr
  exact depends_only a hab ha hp hl hh hf.since hv hag

/-- C105: the same for Count: it is possible while the mutex is free, and its answer depends only on the cells that it is listed to read. -/
theorem C105_count_depends_only_on_its_cells (st : St D) : ((Move.count : Move D).able st = true ↔ st.sh.locked = false) ∧
    ∀ st2 : St D, Agree st st2 .count → st2.sh.items.length = st.sh.items.length := by
  refine ⟨by simp [Move.able], fun st2 hag => ?_⟩
  have h1 : st2.left.length = st.left.length := hag ⟨.items, false, true⟩ (by simp [Move.cells])
  have h2 := hag ⟨.map st.left.length, false, true⟩ (by simp [Move.cells]) st.sh.items (by simp)
  simp only [← h1, List.getElem?_append_right (Nat.le_refl _), Nat.sub_self, List.getElem?_cons_zero, Option.some.injEq] at h2
  rw [h2]

/-- C105: programs that are considerate (a Get of a present key and a call that changes the cache begin only when no other Get that found its
entry and, with a limit, no other Set is running; no Verify when there is a validator; no assignment to the fields after the start) never race,
whatever the schedule. -/
theorem C105_considerate_programs_never_race {m e : Int} {v : Bool} {st : St D} (hr : ConsiderateRun m e v st) (a b : Move D)
    (ha : Considerate st a) (hb : Considerate st b) : ¬ Race st a b := by
  intro h
  obtain ⟨h1, _, f, h3⟩ := considerate_inv hr
  rcases race_clash h3 h with hc | hc
  · exact h1.no_clash h.1 ha hc
  · exact h1.no_clash (concurrent_comm h.1) hb hc

/-- C105: considerate programs keep the eviction order: whenever no goroutine is in a Get that found its entry every present key is in the pile;
only a Clean of more than 100 percent panics; and the mutex stays locked only after such a panic. -/
theorem C105_considerate_programs_keep_the_order {m e : Int} {v : Bool} {st : St D} (hr : ConsiderateRun m e v st) :
    ((∀ t, ¬ InGet (st.pcs t)) → ∀ k, (st.sh.items.get k).isSome = true → k ∈ st.sh.pile) ∧
      (∀ p, Obs.panicked p ∈ st.obs → 100 < p) ∧ (st.sh.locked = true → ∃ p, 100 < p ∧ Obs.panicked p ∈ st.obs) := by
  have h := considerate_piled hr
  refine ⟨?_, h.panics, fun hl => ?_⟩
  · intro ha k hk
    obtain ⟨id, hid⟩ := Option.isSome_iff_exists.1 hk
    rcases h.sub k id hid with h1 | ⟨t, id', h1 | ⟨p, h1⟩⟩
    · exact h1
    · exact absurd (by rw [h1]; trivial) (ha t)
    · exact absurd (by rw [h1]; trivial) (ha t)
  · obtain ⟨p, hp⟩ := h.locked hl
    exact ⟨p, h.panics p hp, hp⟩

/-- C105: a Get of a valid entry can always race with every Set, every Del and every Clean of other goroutines, whatever their keys. -/
theorem C105_get_races_with_every_change {m e : Int} {as : List (Act D)} {st : St D} (hr : runActs (init m e) as = some st)
    (hl : st.sh.locked = false) {k : Str} {id : Nat} {x : Entry D} (hk : st.sh.items.get k = some id) (hx : st.sh.heap[id]? = some x)
    {t : Nat} (h1 : st.pcs t = .idle) (now : Int) (hexp : st.sh.expire = 0 ∨ now ≤ x.ctime + st.sh.expire) :
    ∃ st', runActs st [.getStart t k, .checkVal t true, .checkExp t now, .writeRtime t now] = some st' ∧
      (∀ t' env k' d, t' ≠ t → st.pcs t' = .idle → Race st' (.act (.loadPile t)) (.act (.set t' env k' d))) ∧
      (∀ k', Race st' (.act (.loadPile t)) (.act (.del k'))) ∧
      (∀ env p, Race st' (.act (.loadPile t)) (.act (.clean env p))) := by
  obtain ⟨st', hs, hq, ho, hl', _⟩ := up_to_touch hl hk hx h1 now hexp
  obtain ⟨f, hf⟩ := owned_run (owned_init m e) (Inv.init m e) as hr
  obtain ⟨f', hf'⟩ := owned_run hf ((Inv.init m e).run as hr) _ hs
  have able : Move.able st' (.act (.loadPile t)) = true := by simp [Move.able, apply, hq]
  refine ⟨st', hs, ?_, ?_, ?_⟩
  · intro t' env k' d hne hi
    have hi' : st'.pcs t' = .idle := (ho t' hne).trans hi
    refine (race_iff hf' _ _).2 ⟨⟨able, by simp [Move.able, apply, hl', hi'], ?_⟩, Or.inr (.pile trivial trivial)⟩
    intro s hs hs'
    simp only [Move.owner, Option.some.injEq] at hs hs'
    exact hne (hs'.trans hs.symm)
  · intro k'
    exact (race_iff hf' _ _).2 ⟨⟨able, by simp [Move.able, apply, hl'], fun s _ hs => by cases hs⟩, Or.inr (.pile trivial trivial)⟩
  · intro env p
    exact (race_iff hf' _ _).2 ⟨⟨able, by simp [Move.able, apply, hl'], fun s _ hs => by cases hs⟩, Or.inr (.pile trivial trivial)⟩

/-- C105: two Gets of valid entries can always race, also when the keys are different. -/
theorem C105_two_gets_race {m e : Int} {as : List (Act D)} {st : St D} (hr : runActs (init m e) as = some st)
    (hl : st.sh.locked = false) {k k' : Str} {id id' : Nat} {x x' : Entry D} (hk : st.sh.items.get k = some id) (hx : st.sh.heap[id]? = some x)
    (hk' : st.sh.items.get k' = some id') (hx' : st.sh.heap[id']? = some x') {t t' : Nat} (hne : t' ≠ t) (h1 : st.pcs t = .idle)
    (h2 : st.pcs t' = .idle) (now : Int) (hexp : st.sh.expire = 0 ∨ now ≤ x.ctime + st.sh.expire)
    (hexp' : st.sh.expire = 0 ∨ now ≤ x'.ctime + st.sh.expire) :
    ∃ st', runActs st ([.getStart t k, .checkVal t true, .checkExp t now, .writeRtime t now] ++
        ([.getStart t' k', .checkVal t' true, .checkExp t' now, .writeRtime t' now] ++ [.loadPile t'])) = some st' ∧
      Race st' (.act (.loadPile t)) (.act (.storePile t')) := by
  obtain ⟨st1, hs1, hq1, ho1, hl1, hi1, he1, hh1⟩ := up_to_touch hl hk hx h1 now hexp
  obtain ⟨y, hy, hyc⟩ := hh1 id' x' hx'
  obtain ⟨st2, hs2, hq2, ho2, hl2, _⟩ := up_to_touch (st := st1) hl1 (by rw [hi1]; exact hk') hy ((ho1 t' hne).trans h2) now (by rw [he1, hyc]; exact hexp')
  let st3 : St D := { st2 with pcs := upd st2.pcs t' (.removing k' id' st2.sh.pile) }
  have hs3 : runActs st2 [.loadPile t'] = some st3 := by simp [runActs, apply, hq2, st3]
  have hs : runActs st ([.getStart t k, .checkVal t true, .checkExp t now, .writeRtime t now] ++
        ([.getStart t' k', .checkVal t' true, .checkExp t' now, .writeRtime t' now] ++ [.loadPile t'])) = some st3 := by
    rw [runActs_append _ _ hs1, runActs_append _ _ hs2, hs3]
  obtain ⟨f, hf⟩ := owned_run (owned_init m e) (Inv.init m e) as hr
  obtain ⟨f', hf'⟩ := owned_run hf ((Inv.init m e).run as hr) _ hs
  have hp : st3.pcs t = .touch k id := by
    have : t ≠ t' := fun h => hne h.symm
    simp only [st3, upd, this, if_false]
    exact (ho2 t this).trans hq1
  refine ⟨st3, hs, (race_iff hf' _ _).2 ⟨⟨by simp [Move.able, apply, hp], by simp [Move.able, apply, st3, upd], ?_⟩, Or.inr (.pile trivial trivial)⟩⟩
  intro s hs hs'
  simp only [Move.owner, Option.some.injEq] at hs hs'
  exact hne (hs'.trans hs.symm)

/-- C105: with a limit, two Sets can always race: after the first half of one, its look at the size of the map and the first half of the other. -/
theorem C105_sets_with_limit_race {m e : Int} {as : List (Act D)} {st : St D} (hr : runActs (init m e) as = some st)
    (hl : st.sh.locked = false) (hm : 0 < st.sh.maxitems) {t t' : Nat} (hne : t' ≠ t) (h1 : st.pcs t = .idle) (h2 : st.pcs t' = .idle)
    (env : Env) (k : Str) (d : D) :
    ∃ st', runActs st [.set t env k d] = some st' ∧ ∀ env1 env2 k2 d2,
      (Race st' (.act (.setFull t env1)) (.act (.set t' env2 k2 d2)) ∨ Race st' (.act (.setOk t)) (.act (.set t' env2 k2 d2))) := by
  let st' : St D := { st with sh := set st.sh env k d, pcs := upd st.pcs t .setDone, obs := st.obs ++ [.stored k d] }
  have hs : runActs st [.set t env k d] = some st' := by simp [runActs, apply, hl, h1, st']
  obtain ⟨f, hf⟩ := owned_run (owned_init m e) (Inv.init m e) as hr
  obtain ⟨f', hf'⟩ := owned_run hf ((Inv.init m e).run as hr) _ hs
  have hl' : st'.sh.locked = false := hl
  have hm' : 0 < st'.sh.maxitems := hm
  have hq : st'.pcs t = .setDone := by simp [st', upd]
  have hq' : st'.pcs t' = .idle := by simp only [st', upd, hne, if_false]; exact h2
  refine ⟨st', hs, fun env1 env2 k2 d2 => ?_⟩
  have able' : Move.able st' (.act (.set t' env2 k2 d2)) = true := by simp [Move.able, apply, hl', hq']
  have diff : ∀ s, some t = some s → some t' ≠ some s := by
    intro s hs hs'
    simp only [Option.some.injEq] at hs hs'
    exact hne (hs'.trans hs.symm)
  by_cases hfull : 0 < st'.sh.maxitems ∧ st'.sh.maxitems ≤ st'.sh.items.length
  · exact Or.inl ((race_iff hf' _ _).2 ⟨⟨by simp [Move.able, apply, hl', hq, hfull], able', diff⟩, Or.inr (.map trivial hm')⟩)
  · refine Or.inr ((race_iff hf' _ _).2 ⟨⟨?_, able', diff⟩, Or.inr (.map trivial hm')⟩)
    simp only [Move.able, apply, hq, if_neg hfull, Option.isSome_some]

/-- C105: while a Verify with a validator is in its loop, every Set, Del, Clean and Flush of another goroutine can race with it. -/
theorem C105_verify_races {m e : Int} {as : List (Act D)} {st : St D} (hr : runActs (init m e) as = some st) (hl : st.sh.locked = false)
    (hv : st.sh.hasValidator = true) {t : Nat} (h1 : st.pcs t = .idle) (env : Env) :
    ∃ st', runActs st [.verifyStart t env] = some st' ∧
      (∀ t' env' k d, t' ≠ t → st.pcs t' = .idle → Race st' (.act (.verifyEnd t)) (.act (.set t' env' k d))) ∧
      (∀ k, Race st' (.act (.verifyEnd t)) (.act (.del k))) ∧
      (∀ env' p, Race st' (.act (.verifyEnd t)) (.act (.clean env' p))) ∧
      Race st' (.act (.verifyEnd t)) (.act .flush) := by
  let st' : St D := { st with
    sh := (clean st.sh env 0).1, pcs := upd st.pcs t (.verifying st.left.length),
    obs := st.obs ++ if (clean st.sh env 0).2 then [] else [.panicked 0] }
  have hs : runActs st [.verifyStart t env] = some st' := by simp [runActs, apply, hl, h1, st']
  obtain ⟨f, hf⟩ := owned_run (owned_init m e) (Inv.init m e) as hr
  obtain ⟨f', hf'⟩ := owned_run hf ((Inv.init m e).run as hr) _ hs
  have hv' : st'.sh.hasValidator = true := (clean_validator _ _ _).trans hv
  have able : Move.able st' (.act (.verifyEnd t)) = true := by simp [Move.able, apply, st', upd]
  have conc : ∀ b : Move D, b.able st' = true → b.owner = none → Concurrent st' (.act (.verifyEnd t)) b :=
    fun b h1 h2 => ⟨able, h1, fun s _ hs => by rw [h2] at hs; cases hs⟩
  have hl' : st'.sh.locked = false := (clean_zero_locked _ _).trans hl
  refine ⟨st', hs, ?_, ?_, ?_, ?_⟩
  · intro t' env' k d hne hi
    have hi' : st'.pcs t' = .idle := by simp only [st', upd, hne, if_false]; exact hi
    refine (race_iff hf' _ _).2 ⟨⟨able, by simp [Move.able, apply, hl', hi'], ?_⟩, Or.inr (.map trivial hv')⟩
    intro s hs hs'
    simp only [Move.owner, Option.some.injEq] at hs hs'
    exact hne (hs'.trans hs.symm)
  · intro k
    exact (race_iff hf' _ _).2 ⟨conc _ (by simp [Move.able, apply, hl']) rfl, Or.inr (.map trivial hv')⟩
  · intro env' p
    exact (race_iff hf' _ _).2 ⟨conc _ (by simp [Move.able, apply, hl']) rfl, Or.inr (.map trivial hv')⟩
  · exact (race_iff hf' _ _).2 ⟨conc _ (by simp [Move.able, apply, hl']) rfl, Or.inr (.flush hv')⟩

/-- C105: assigning `Expire` races with every Clean, assigning a field with another assignment to it. -/
theorem C105_assignments_race {m e : Int} {as : List (Act D)} {st : St D} (hr : runActs (init m e) as = some st) (hl : st.sh.locked = false)
    (x y : Int) (b c : Bool) (env : Env) (p : Int) :
    Race st (.act (.setExpire x)) (.act (.clean env p)) ∧
      Race st (.act (.setMaxitems x)) (.act (.setMaxitems y)) ∧ Race st (.act (.setExpire x)) (.act (.setExpire y)) ∧
      Race st (.act (.setValidator b)) (.act (.setValidator c)) := by
  obtain ⟨f, hf⟩ := owned_run (owned_init m e) (Inv.init m e) as hr
  refine ⟨(race_iff hf _ _).2 ⟨⟨rfl, by simp [Move.able, apply, hl], ?_⟩, Or.inl (.field .expire trivial trivial)⟩,
    (race_iff hf _ _).2 ⟨⟨rfl, rfl, ?_⟩, Or.inl (.field .maxitems trivial trivial)⟩,
    (race_iff hf _ _).2 ⟨⟨rfl, rfl, ?_⟩, Or.inl (.field .expire trivial trivial)⟩,
    (race_iff hf _ _).2 ⟨⟨rfl, rfl, ?_⟩, Or.inl (.field .validator trivial trivial)⟩⟩ <;> (intro s h; cases h)

/-! ## The hypotheses are met -/

/-- A considerate program without limit: two Sets are in their second half and another Set, a Get of an absent key and a Count may begin; none
of them race. -/
example : ∃ st : St Nat, ConsiderateRun 0 0 true st ∧ st.pcs 0 = .setDone ∧ st.pcs 1 = .setDone ∧
    Concurrent st (.act (.setOk 0)) (.act (.set 2 ⟨fun _ => 9, fun _ => 9, fun _ _ => true⟩ b!"a" 3)) ∧
    ¬ Race st (.act (.setOk 0)) (.act (.set 2 ⟨fun _ => 9, fun _ => 9, fun _ _ => true⟩ b!"a" 3)) ∧
    Concurrent st (.act (.getStart 3 b!"c")) .count := by
  let env : Env := ⟨fun _ => 5, fun _ => 5, fun _ _ => true⟩
  have step : ∀ {st st' : St Nat} (a : Act Nat), ConsiderateRun 0 0 true st → Considerate st (.act a) → apply st a = some st' →
      ConsiderateRun 0 0 true st' := fun a h1 h2 h3 => .step h1 h2 h3
  have s1 := step (.set 0 env b!"a" 1) .start (fun t => ⟨fun h => h, fun h => absurd h (by decide)⟩) rfl
  have al : ∀ st : St Nat, st.sh.maxitems = 0 → (∀ t, st.pcs t = .idle ∨ st.pcs t = .setDone) → Alone st := by
    intro st h0 h t
    refine ⟨?_, fun h1 => absurd h1 (by rw [h0]; decide)⟩
    rcases h t with h | h <;> (rw [h]; exact fun h => h)
  have s2 := step (.set 1 env b!"b" 2) s1 (al _ rfl (fun t => by
    by_cases ht : t = 0 <;> simp [upd, ht, start, init])) rfl
  refine ⟨_, s2, rfl, rfl, ⟨rfl, rfl, by simp [Move.owner]⟩, ?_, ⟨rfl, rfl, by simp [Move.owner]⟩⟩
  exact C105_considerate_programs_never_race s2 _ _ trivial (al _ rfl (fun t => by
    by_cases ht : t = 0 <;> by_cases ht1 : t = 1 <;> simp [upd, ht, ht1, start, init]))

/-- A considerate program with a limit: in the middle of a Get the key is not in the pile. -/
example : ∃ st : St Nat, ConsiderateRun 3 0 false st ∧ (∃ t, InGet (st.pcs t)) ∧ (st.sh.items.get b!"a").isSome = true ∧ b!"a" ∉ st.sh.pile := by
  let env : Env := ⟨fun _ => 5, fun _ => 5, fun _ _ => true⟩
  have step : ∀ {st st' : St Nat} (a : Act Nat), ConsiderateRun 3 0 false st → Considerate st (.act a) → apply st a = some st' →
      ConsiderateRun 3 0 false st' := fun a h1 h2 h3 => .step h1 h2 h3
  have s1 := step (.set 0 env b!"a" 1) .start (fun t => ⟨fun h => h, fun _ h => by cases h⟩) rfl
  have s2 := step (.setOk 0) s1 trivial rfl
  have s3 := step (.getStart 1 b!"a") s2 (fun _ t => by
    by_cases ht : t = 0
    · subst ht; exact ⟨fun h => h, fun _ h => by cases h⟩
    · exact ⟨by simp [upd, ht, start, init, InGet], by simp [upd, ht, start, init]⟩) rfl
  have s4 := step (.checkVal 1 true) s3 trivial rfl
  have s5 := step (.checkExp 1 6) s4 trivial rfl
  have s6 := step (.writeRtime 1 6) s5 trivial rfl
  have s7 := step (.loadPile 1) s6 trivial rfl
  have s8 := step (.storePile 1) s7 trivial rfl
  exact ⟨_, s8, ⟨1, trivial⟩, rfl, by decide⟩

/-- A state with two entries, a limit, a validator and idle goroutines, as the theorems about races want it. -/
example : ∃ st : St Nat, runActs (init 10 100) [.setValidator true, .set 0 ⟨fun _ => 5, fun _ => 5, fun _ _ => true⟩ b!"a" 1, .setOk 0,
      .set 0 ⟨fun _ => 6, fun _ => 6, fun _ _ => true⟩ b!"b" 2, .setOk 0] = some st ∧ st.sh.locked = false ∧ 0 < st.sh.maxitems ∧
    st.sh.items.get b!"a" = some 0 ∧ st.sh.heap[0]? = some ⟨5, 5, 1⟩ ∧ st.sh.items.get b!"b" = some 1 ∧ st.sh.heap[1]? = some ⟨6, 6, 2⟩ ∧
    st.pcs 0 = .idle ∧ st.pcs 1 = .idle ∧ st.sh.hasValidator = true ∧ (7 : Int) ≤ 5 + st.sh.expire ∧ (7 : Int) ≤ 6 + st.sh.expire :=
  ⟨_, rfl, rfl, by decide, rfl, rfl, rfl, rfl, rfl, rfl, rfl, by decide, by decide⟩

/-- Two memories that differ in the fields, in the map and in the data, but not in what the end of a Get needs to load the pile. -/
example : ∃ st st1 st2 : St Nat,
    runActs (init 10 100) [.set 0 ⟨fun _ => 5, fun _ => 5, fun _ _ => true⟩ b!"a" 1, .setOk 0, .getStart 0 b!"a", .checkVal 0 true, .checkExp 0 6,
      .writeRtime 0 6] = some st ∧
    apply st (.loadPile 0) = some st1 ∧ st2.pcs = st.pcs ∧ st2.sh.locked = st.sh.locked ∧ st2.sh.heap.length = st.sh.heap.length ∧
    Agree st st2 (.act (.loadPile 0)) ∧ st2.sh.items ≠ st.sh.items ∧ st2.sh.expire ≠ st.sh.expire ∧ st2.sh.heap ≠ st.sh.heap := by
  refine ⟨_, _, ⟨⟨1, 3, true, [], [⟨8, 8, 8⟩], [b!"a"], false⟩, [], fun j => if j = 0 then .touch b!"a" 0 else .idle, []⟩, rfl, rfl, ?_, rfl, rfl, ?_,
    by decide, by decide, by decide⟩
  · funext j
    by_cases h : j = 0
    · subst h; rfl
    · simp [upd, h, init]
  · intro x hx
    have hx : x ∈ [(⟨.pile, false, false⟩ : Access)] := hx
    simp only [List.mem_singleton] at hx
    subst hx
    rfl

end Xcore.V1.CacheConc
