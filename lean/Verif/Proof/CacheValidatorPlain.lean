import Verif.Proof.CacheValidator

/-! # Validators that only answer: the sequential model -/

namespace Xcore.CacheValidator

open Cache CacheConc Spec CacheConc.Spec

variable {D : Type}

/-- The code ends with the same state and answer as the sequential model. -/
def Same (r : Ran D (Out D)) (s : Cache D × Out D) : Prop :=
  match r with
  | .ret st' o => o = s.2 ∧ s.2 ≠ .panicked ∧ Rep st'.sh s.1 ∧ Good st'
  | .panic st' => s.2 = .panicked ∧ Rep st'.sh s.1 ∧ Good st'
  | _ => False

theorem clean_num {s : Shared D} {c : Cache D} (h : Rep s c) (env : Env) (p : Int) (hok : (CacheConc.mClean s env p).2 = true) :
    (Cache.mClean c env p).2 = some ((s.pile.length : Int) - (CacheConc.mClean s env p).1.pile.length) := by
  have hsw := swept_same h.holds env
  have h1 := (h.mClean env p).2
  rw [hok] at h1
  rw [mClean_flag, decide_eq_true_eq] at hok
  rw [CacheConc.mClean_pile, if_pos hok, List.length_drop]
  unfold Cache.mClean at h1 ⊢
  dsimp only at h1 ⊢
  rw [hsw.length] at h1 ⊢
  split
  · simp only [Option.some.injEq]; omega
  · rename_i hx
    rw [hx] at h1
    cases h1

theorem same_clean {st : State D} {c : Cache D} (h : Good st) (hr : Rep st.sh c) (env : Env) (p : Int) :
    match clean st env p with
    | .ret st' n => (Cache.clean c env p).2 = some n ∧ Rep st'.sh (Cache.clean c env p).1 ∧ Good st'
    | .panic st' => (Cache.clean c env p).2 = none ∧ Rep st'.sh (Cache.clean c env p).1 ∧ Good st'
    | _ => False := by
  have h1 := fine_clean h env p
  have h2 := hr.mClean env p
  rw [clean_free h.free] at h1 ⊢
  cases hx : (CacheConc.mClean st.sh env p).2 with
  | true =>
    rw [hx] at h1
    exact ⟨clean_num hr env p hx, h2.1, h1.1⟩
  | false =>
    rw [hx] at h1 h2
    refine ⟨?_, h2.1, h1.1⟩
    cases hy : (Cache.clean c env p).2 with
    | none => rfl
    | some n =>
      have := h2.2
      unfold Cache.clean at hy
      rw [hy] at this
      cases this

section

variable {W : World D} {v : Str → Int → Bool}

theorem plain_ask (hW : ∀ n k t, W.validator n k t = .answer (v k t)) (call : State D → Env → Op D → Ran D (Out D)) {st : State D}
    (hv : st.sh.hasValidator = true) (k : Str) (t : Int) : ask W call st k t = .ret { st with asked := st.asked + 1 } (v k t) := by
  unfold ask
  rw [if_pos hv, hW]
  rfl

theorem same_getDrop {st : State D} {c : Cache D} (h : Good st) (hr : Rep st.sh c) (k : Str) :
    Same (getDrop st k) (Cache.del c k, .got none true) := by
  have := fine_getDrop h k
  rw [getDrop_free h.free] at this ⊢
  exact ⟨rfl, by nofun, hr.del k, this.1⟩

theorem same_get (hW : ∀ n k t, W.validator n k t = .answer (v k t)) (call : State D → Env → Op D → Ran D (Out D)) (hc : FineCalls call) {st : State D}
    {c : Cache D} (h : Good st) (hr : Rep st.sh c) (env : Env) (hv : env.valid = v) (k : Str) :
    Same (get W call st env k) (Cache.step c env (.get k)) := by
  have hfine := fine_get W hc h env k
  unfold get at hfine ⊢
  rw [mGet_free h.free, Ran.bind_ret] at hfine ⊢
  cases hk : st.sh.items.get k with
  | none =>
    simp only [Cache.step, Cache.get, hr.holds.items.get_none hk]
    exact ⟨rfl, by nofun, hr, h⟩
  | some id =>
    obtain ⟨e, hce, he⟩ := hr.holds.items.get_some hk
    rw [hk] at hfine
    dsimp only at hfine ⊢
    rw [he] at hfine ⊢
    dsimp only at hfine ⊢
    have hstep : Cache.step c env (.get k) = if invalid c env k e then (Cache.del c k, .got none true)
        else ({ c with items := c.items.set k { e with rtime := env.clk 2 }, pile := removeFromPile c.pile k ++ [k] }, .got (some e.data) false) := by
      simp only [Cache.step, Cache.get, hce]
      split <;> rfl
    rw [hstep]
    have hinv : invalid c env k e = ((decide (e.ttl ≠ 0) && past e.ctime e.ttl (env.clk 0)) || (st.sh.hasValidator && !v k e.ctime) ||
        (decide (st.sh.expire ≠ 0) && past e.ctime st.sh.expire (env.clk 1))) := by
      rw [invalid, hr.holds.expire, hr.holds.hasValidator, hv]
    rw [hinv]
    by_cases h1 : e.ttl ≠ 0 ∧ past e.ctime e.ttl (env.clk 0) = true
    · rw [if_pos h1, if_pos (by simp [h1])]
      exact same_getDrop h hr k
    · rw [if_neg h1] at hfine ⊢
      have h1' : (decide (e.ttl ≠ 0) && past e.ctime e.ttl (env.clk 0)) = false := by
        rw [Bool.eq_false_iff]; intro hx; simp only [Bool.and_eq_true, decide_eq_true_eq] at hx; exact h1 hx
      rw [h1']
      have hasked : ∃ n, (if st.sh.hasValidator then ask W call st k e.ctime else .ret st true) =
          .ret { st with asked := n } (!(st.sh.hasValidator && !v k e.ctime)) := by
        cases hb : st.sh.hasValidator with
        | true => exact ⟨st.asked + 1, by rw [if_pos rfl, plain_ask hW call hb]; simp⟩
        | false => exact ⟨st.asked, by simp⟩
      obtain ⟨n, hn⟩ := hasked
      rw [hn, Ran.bind_ret] at hfine ⊢
      cases hb : (st.sh.hasValidator && !v k e.ctime) with
      | true =>
        simp only [Bool.not_true, Bool.not_false, if_true, Bool.false_or, Bool.true_or]
        exact same_getDrop (h.asked n) hr k
      | false =>
        rw [hb] at hfine
        simp only [Bool.not_false, Bool.not_true, if_false, Bool.false_or, Bool.false_eq_true] at hfine ⊢
        by_cases h3 : st.sh.expire ≠ 0 ∧ past e.ctime st.sh.expire (env.clk 1) = true
        · rw [if_pos h3, if_pos (by simp [h3])]
          exact same_getDrop (h.asked n) hr k
        · rw [if_neg h3] at hfine ⊢
          rw [if_neg (by simpa using h3)]
          rw [touch_free (by exact h.free)] at hfine ⊢
          refine ⟨rfl, by nofun, ?_, hfine.1⟩
          refine ⟨⟨hr.holds.maxitems, hr.holds.expire, hr.holds.hasValidator, by simp [hr.holds.pile], ?_⟩, ?_, hr.ids⟩
          · exact hr.holds.items.modify hr.ids hk hce _
          · exact tracked_heap (tracked_touch hr.tracked k) _

/-- Whether the validator refuses an entry. -/
def bad (v : Str → Int → Bool) (heap : List (Entry D)) (p : Str × Nat) : Bool :=
  match heap[p.2]? with
  | some e => !v p.1 e.ctime
  | none => false

theorem seq_verifyLoop (env : Env) : ∀ (l : List (Str × Entry D)) (c : Cache D) (i : Int),
    Cache.verifyLoop env l c i = (((l.filter fun p => !env.valid p.1 p.2.ctime).map Prod.fst).foldl Cache.del c,
      i + ((l.filter fun p => !env.valid p.1 p.2.ctime).length : Nat)) := by
  intro l
  induction l with
  | nil => intro c i; simp [Cache.verifyLoop]
  | cons p l ih =>
    intro c i
    obtain ⟨k, x⟩ := p
    simp only [Cache.verifyLoop, List.filter_cons]
    split
    · rename_i hb
      rw [ih]
      simp only [List.map_cons, List.foldl_cons, List.length_cons, Prod.mk.injEq, true_and]
      omega
    · rename_i hb
      rw [ih]

theorem foldr_del_get (items0 : AMap Nat) (k : Str) : ∀ l : List Str,
    (l.foldr (fun k m => AMap.del m k) items0).get k = if k ∈ l then none else items0.get k := by
  intro l
  induction l with
  | nil => simp
  | cons x l ih =>
    rw [List.foldr_cons, AMap.get_del, ih]
    by_cases h : k = x <;> simp [h]

theorem plain_loop (hW : ∀ n k t, W.validator n k t = .answer (v k t)) (call : State D → Env → Op D → Ran D (Out D)) (c1 : Cache D)
    (items0 : AMap Nat) (heap0 : List (Entry D)) (h0 : items0.Nodup) (i0 : Int) :
    ∀ (f : Nat) (todo done : List (Str × Nat)) (st : State D), todo.length < f → (todo ++ done).Perm items0 →
      Good st → st.sh.heap = heap0 → st.sh.hasValidator = true →
      st.sh.items = ((done.filter (bad v heap0)).map Prod.fst).foldr (fun k m => AMap.del m k) items0 →
      Rep st.sh (((done.filter (bad v heap0)).map Prod.fst).foldr (fun k c => Cache.del c k) c1) →
      ∃ st', verifyLoop W call st.left.length f todo done (i0 + ((done.filter (bad v heap0)).length : Nat)) st =
          .ret st' (.num (i0 + ((items0.filter (bad v heap0)).length : Nat))) ∧ Good st' ∧
        Rep st'.sh (((items0.filter (bad v heap0)).map Prod.fst).foldl Cache.del c1) := by
  intro f
  induction f with
  | zero => intro todo done st hf; exact absurd hf (Nat.not_lt_zero _)
  | succ f ih =>
    intro todo done st hf hp hg hh hv hit hr
    have hmap : mapOf st st.left.length = st.sh.items := by simp [mapOf]
    have hpn : ((todo ++ done).map Prod.fst).Nodup := (hp.map Prod.fst).nodup_iff.2 h0
    have hget : ∀ k, st.sh.items.get k = if k ∈ (done.filter (bad v heap0)).map Prod.fst then none else items0.get k := by
      intro k; rw [hit, foldr_del_get]
    have htodo : ∀ p ∈ todo, st.sh.items.get p.1 = some p.2 := by
      intro p hpt
      rw [hget, if_neg]
      · exact AMap.get_of_mem h0 (hp.mem_iff.1 (List.mem_append_left _ hpt))
      · intro hm
        obtain ⟨q, hq, hqp⟩ := List.mem_map.1 hm
        rw [List.map_append, List.nodup_append] at hpn
        exact hpn.2.2 p.1 (List.mem_map_of_mem hpt) q.1 (List.mem_map_of_mem (List.mem_filter.1 hq).1) hqp.symm
    rw [verifyLoop]
    cases hx : rangeNext W st st.left.length todo done with
    | none =>
      have htn : todo = [] := by
        have hforced : todo.find? (fun p => (mapOf st st.left.length).get p.1 == some p.2) = none := by
          unfold rangeNext at hx
          dsimp only at hx
          split at hx
          · exact hx
          · split at hx
            · split at hx
              · exact hx
              · cases hx
            · exact hx
        rw [List.find?_eq_none] at hforced
        cases todo with
        | nil => rfl
        | cons p t =>
          have := hforced p (List.mem_cons_self ..)
          rw [hmap, htodo p (List.mem_cons_self ..)] at this
          simp at this
      subst htn
      rw [List.nil_append] at hp
      have hb := hp.filter (bad v heap0)
      refine ⟨{ st with asked := st.asked + 1 }, ?_, hg.asked _, ?_⟩
      · dsimp only
        rw [hb.length_eq]
      · rw [← foldl_del_perm (hb.map Prod.fst)]
        rw [← foldl_del_perm ((List.reverse_perm _)), List.foldl_reverse]
        exact hr
    | some p =>
      obtain ⟨k, id⟩ := p
      have hk := rangeNext_get hx
      rw [hmap] at hk
      have hmem : (k, id) ∈ todo := by
        have hfind : ∀ p, todo.find? (fun p => (mapOf st st.left.length).get p.1 == some p.2) = some p → p ∈ todo :=
          fun p hp => List.mem_of_find?_eq_some hp
        unfold rangeNext at hx
        dsimp only at hx
        split at hx
        · exact hfind _ hx
        · split at hx
          · split at hx
            · exact hfind _ hx
            · rename_i hnd
              cases hx
              have h1 : items0.get k = some id := by
                have := hget k
                rw [hk] at this
                split at this
                · cases this
                · exact this.symm
              rcases List.mem_append.1 (hp.mem_iff.2 (AMap.mem_of_get h1)) with h2 | h2
              · exact h2
              · exact absurd h2 hnd
          · exact hfind _ hx
      obtain ⟨e, he, _⟩ := hg.items k id hk
      dsimp only
      rw [he]
      dsimp only
      rw [plain_ask hW call (by exact hv), Ran.bind_ret]
      have hlen : (todo.erase (k, id)).length < f := by
        have h1 := List.length_erase_of_mem hmem
        have h2 : 0 < todo.length := List.length_pos_of_mem hmem
        omega
      have hperm : (todo.erase (k, id) ++ (k, id) :: done).Perm items0 := by
        refine List.Perm.trans ?_ hp
        refine List.perm_middle.trans ?_
        exact (List.perm_cons_erase hmem).symm.append_right done
      have hbad : bad v heap0 (k, id) = !v k e.ctime := by
        unfold bad
        rw [← hh]
        dsimp only
        rw [he]
      cases hb : v k e.ctime with
      | true =>
        rw [hb] at hbad
        have hdone : ((k, id) :: done).filter (bad v heap0) = done.filter (bad v heap0) := by
          rw [List.filter_cons_of_neg]; simp [hbad]
        have := ih (todo.erase (k, id)) ((k, id) :: done) { st with asked := st.asked + 1 + 1 } hlen hperm (hg.asked _) hh hv
          (by rw [hdone]; exact hit) (by rw [hdone]; exact hr)
        rw [hdone] at this
        exact this
      | false =>
        rw [hb] at hbad
        have hdone : ((k, id) :: done).filter (bad v heap0) = (k, id) :: done.filter (bad v heap0) := by
          rw [List.filter_cons_of_pos]; simp [hbad]
        have hg2 := fine_del (hg.asked (st.asked + 1 + 1)) k
        rw [del_free (by exact hg.free)] at hg2 ⊢
        simp only [Bool.not_false, if_true, Ran.bind_ret]
        have := ih (todo.erase (k, id)) ((k, id) :: done) { st with asked := st.asked + 1 + 1, sh := CacheConc.del st.sh k } hlen hperm
          hg2.1 hh hv (by rw [hdone]; simp only [CacheConc.del, List.map_cons, List.foldr_cons]; rw [hit])
          (by rw [hdone]; exact hr.del k)
        rw [hdone] at this
        rw [List.length_cons, Int.natCast_add, ← Int.add_assoc] at this
        exact this

theorem same_verify (hW : ∀ n k t, W.validator n k t = .answer (v k t)) (call : State D → Env → Op D → Ran D (Out D)) {st : State D}
    {c : Cache D} (h : Good st) (hr : Rep st.sh c) (env : Env) (hv : env.valid = v) {f : Nat} (hf : st.sh.items.length < f) :
    Same (verify W call f st env) (Cache.step c env .verify) := by
  have h1 := same_clean h hr env 0
  unfold verify
  rw [clean_ok h env (by decide)] at h1 ⊢
  rw [Ran.bind_ret]
  obtain ⟨h2, h3, h4⟩ := h1
  unfold Cache.step Cache.verify
  dsimp only
  generalize hc1 : Cache.clean c env 0 = r at *
  obtain ⟨c1, o⟩ := r
  dsimp only at h2 h3 ⊢
  subst h2
  dsimp only
  have hval := h3.holds.hasValidator
  rw [hval]
  split
  · rename_i hb
    have hl : (CacheConc.mClean st.sh env 0).1.items.length < f := by
      have h5 : (CacheConc.mClean st.sh env 0).1.items.length ≤ st.sh.items.length := by
        have h6 := nodup_length_le (l := (CacheConc.mClean st.sh env 0).1.items.keys) (m := st.sh.items.keys) h3.tracked.nodup (by
          intro k hk
          obtain ⟨id, hid⟩ := (AMap.mem_keys_iff _ _).1 hk
          exact (AMap.mem_keys_iff _ _).2 ⟨id, mClean_sub h.tracked.nodup env 0 k id hid⟩)
        simpa using h6
      omega
    obtain ⟨st', h5, h6, h7⟩ := plain_loop hW call c1 (CacheConc.mClean st.sh env 0).1.items (CacheConc.mClean st.sh env 0).1.heap h3.tracked.nodup
      ((st.sh.pile.length : Int) - (CacheConc.mClean st.sh env 0).1.pile.length) f (CacheConc.mClean st.sh env 0).1.items []
      { st with sh := (CacheConc.mClean st.sh env 0).1 } hl (by simp) h4 rfl hb rfl h3
    simp only [List.filter_nil, List.length_nil, Int.natCast_zero, Int.add_zero] at h5
    rw [h5, seq_verifyLoop]
    have hsame : SameItems (CacheConc.mClean st.sh env 0).1.heap
        ((CacheConc.mClean st.sh env 0).1.items.filter (bad v (CacheConc.mClean st.sh env 0).1.heap))
        (c1.items.filter fun p => !env.valid p.1 p.2.ctime) := by
      refine h3.holds.items.filter ?_
      intro k id e he
      rw [bad, he, hv]
    have hk := hsame.keys
    unfold AMap.keys at hk
    refine ⟨?_, by nofun, ?_, h6⟩
    · dsimp only
      rw [← hsame.length]
    · dsimp only
      rw [hk]
      exact h7
  · exact ⟨rfl, by nofun, h3, h4⟩

theorem same_exec (hW : ∀ n k t, W.validator n k t = .answer (v k t)) {st : State D} {c : Cache D} (h : Good st) (hr : Rep st.sh c) (env : Env)
    (hv : env.valid = v) (op : Op D) {f : Nat} (hf : st.sh.items.length < f) : Same (exec W (f + 1) st env op) (Cache.step c env op) := by
  cases op with
  | set k d =>
    have h1 := fine_set h env k d
    have h2 := hr.set env k d
    unfold exec; dsimp only
    rw [set_free h.free, if_pos (set_ok h.tracked env k d)] at h1 ⊢
    rw [set_ok h.tracked] at h2
    unfold Cache.step
    dsimp only
    rw [← h2.2]
    exact ⟨rfl, by nofun, h2.1, h1.1⟩
  | setTTL k t =>
    have h1 := fine_setTTL h k t
    unfold exec; dsimp only
    rw [setTTL_free h.free] at h1 ⊢
    refine ⟨rfl, by nofun, ?_, h1.1⟩
    cases hk : st.sh.items.get k with
    | none => simp only [Cache.step, Cache.setTTL, hr.holds.items.get_none hk]; exact hr
    | some id => exact hr.setTTL hk t
  | get k => exact same_get hW _ (fine_exec W f) h hr env hv k
  | del k =>
    have h1 := fine_del h k
    unfold exec; dsimp only
    rw [del_free h.free] at h1 ⊢
    exact ⟨rfl, by nofun, hr.del k, h1.1⟩
  | count =>
    unfold exec; dsimp only
    rw [count_free h.free]
    refine ⟨?_, by nofun, hr, h⟩
    simp only [Cache.step, Cache.count, hr.holds.items.length]
  | clean p =>
    have h1 := same_clean h hr env p
    unfold exec Cache.step; dsimp only
    cases hx : clean st env p with
    | ret st1 n =>
      rw [hx] at h1
      dsimp only at h1
      rw [h1.1]
      exact ⟨rfl, by nofun, h1.2⟩
    | panic st1 =>
      rw [hx] at h1
      dsimp only at h1
      rw [h1.1]
      exact ⟨rfl, h1.2⟩
    | stuck => rw [hx] at h1; exact h1
    | deep => rw [hx] at h1; exact h1
  | verify => exact same_verify hW _ h hr env hv hf
  | flush =>
    have h1 := fine_flush h
    unfold exec; dsimp only
    rw [flush_free h.free] at h1 ⊢
    exact ⟨rfl, by nofun, ⟨⟨hr.holds.maxitems, hr.holds.expire, hr.holds.hasValidator, hr.holds.pile, .nil⟩, h1.1.tracked, by simp⟩, h1.1⟩
  | setMaxitems m =>
    have h1 := fine_exec W (f + 1) st env (.setMaxitems m) h
    exact ⟨rfl, by nofun, ⟨⟨rfl, hr.holds.expire, hr.holds.hasValidator, hr.holds.pile, hr.holds.items⟩, h1.1.tracked, hr.ids⟩, h1.1⟩
  | setExpire m =>
    have h1 := fine_exec W (f + 1) st env (.setExpire m) h
    exact ⟨rfl, by nofun, ⟨⟨hr.holds.maxitems, rfl, hr.holds.hasValidator, hr.holds.pile, hr.holds.items⟩, h1.1.tracked, hr.ids⟩, h1.1⟩
  | setValidator m =>
    have h1 := fine_exec W (f + 1) st env (.setValidator m) h
    exact ⟨rfl, by nofun, ⟨⟨hr.holds.maxitems, hr.holds.expire, rfl, hr.holds.pile, hr.holds.items⟩, h1.1.tracked, hr.ids⟩, h1.1⟩

theorem same_run (hW : ∀ n k t, W.validator n k t = .answer (v k t)) : ∀ (h : List (Env × Op D)) (st : State D) (c : Cache D), Good st → Rep st.sh c →
    (∀ x ∈ h, x.1.valid = v) → ∃ f st' outs, run W f st h = .ret st' outs ∧ Rep st'.sh (Cache.run c h).1 ∧ outs.map outOf = (Cache.run c h).2 := by
  intro h
  induction h with
  | nil => intro st c hg hr _; exact ⟨0, st, [], rfl, hr, rfl⟩
  | cons x h ih =>
    intro st c hg hr hv
    obtain ⟨env, op⟩ := x
    have h1 := same_exec hW hg hr env (hv _ (List.mem_cons_self ..)) op (Nat.lt_succ_self st.sh.items.length)
    obtain ⟨r1, r2⟩ := run_cons c env op h
    have key : ∀ (st1 : State D) (o : Option (Out D)), Good st1 → Rep st1.sh (Cache.step c env op).1 → outOf o = (Cache.step c env op).2 →
        (∀ f, exec W (st.sh.items.length + 1 + 1 + f) st env op = match o with | some o => .ret st1 o | none => .panic st1) →
        ∃ f st' outs, run W f st ((env, op) :: h) = .ret st' outs ∧ Rep st'.sh (Cache.run c ((env, op) :: h)).1 ∧
          outs.map outOf = (Cache.run c ((env, op) :: h)).2 := by
      intro st1 o hg1 hr1 ho hx
      obtain ⟨f, st', outs, h2, h3, h4⟩ := ih st1 _ hg1 hr1 (fun x hx => hv x (List.mem_cons_of_mem _ hx))
      refine ⟨st.sh.items.length + 1 + 1 + f, st', o :: outs, ?_, by rw [r1]; exact h3, by rw [r2, List.map_cons, ho, h4]⟩
      have h5 : run W (st.sh.items.length + 1 + 1 + f) st1 h = .ret st' outs := by
        rcases le_run W f (st.sh.items.length + 1 + 1) h st1 with h6 | h6
        · rw [h2] at h6; cases h6
        · rw [Nat.add_comm, ← h6]; exact h2
      unfold run
      rw [hx f]
      cases o <;> (dsimp only; rw [h5]; rfl)
    cases hx : exec W (st.sh.items.length + 1 + 1) st env op with
    | ret st1 o =>
      rw [hx] at h1
      refine key st1 (some o) h1.2.2.2 h1.2.2.1 h1.1 ?_
      intro f
      rcases le_exec_add W (st.sh.items.length + 1 + 1) f st env op with h6 | h6
      · rw [hx] at h6; cases h6
      · rw [← h6]; exact hx
    | panic st1 =>
      rw [hx] at h1
      refine key st1 none h1.2.2 h1.2.1 h1.1.symm ?_
      intro f
      rcases le_exec_add W (st.sh.items.length + 1 + 1) f st env op with h6 | h6
      · rw [hx] at h6; cases h6
      · rw [← h6]; exact hx
    | stuck => rw [hx] at h1; exact h1.elim
    | deep => rw [hx] at h1; exact h1.elim

end

end Xcore.CacheValidator
