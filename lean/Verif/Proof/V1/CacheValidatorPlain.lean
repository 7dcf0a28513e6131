import Verif.Proof.V1.CacheValidator

/-! # Validators that only answer: the sequential model of version 1 -/

namespace Xcore.V1.CacheValidator

open Xcore.Cache (Env Out)
open Xcore.CacheConc.Spec (SameItems)
open Xcore.V1.Cache (Entry Op Cache removeFromPile)
open Xcore.V1.CacheConc (Shared Rep forget halfSet)
open Spec

variable {D : Type}

/-- The code ends with the same state and answer as the sequential model, and the mutex is free. -/
def Same (r : Ran D (Out D)) (s : Cache D × Out D) : Prop :=
  match r with
  | .ret st' o => o = s.2 ∧ Rep st'.sh s.1 ∧ Good st' ∧ st'.sh.locked = false
  | _ => False

theorem seq_clean_num {c : Cache D} {env : Env} {p n : Int} (h : (Cache.clean c env p).2 = some n) :
    n = (c.pile.length : Int) - (Cache.clean c env p).1.pile.length := by
  unfold Cache.clean at h ⊢
  dsimp only at h ⊢
  generalize (if c.expire ≠ 0 then c.items.filter (fun p => !decide (p.2.ctime + c.expire < env.clkAt p.1)) else c.items : AMap (Entry D)) = its at h ⊢
  by_cases hc : ((its.length * p).tdiv 100).toNat ≤ c.pile.length
  · rw [if_pos hc] at h ⊢
    simp only [Option.some.injEq] at h
    rw [← h]
    simp only [List.length_drop]
    omega
  · rw [if_neg hc] at h
    cases h

theorem same_clean {st : State D} {c : Cache D} (h : Good st) (hf : st.sh.locked = false) (hr : Rep st.sh c) (env : Env) {p : Int} (hp : p ≤ 100) :
    ∃ st' n, clean st env p = .ret st' n ∧ (Cache.clean c env p).2 = some n ∧ Rep st'.sh (Cache.clean c env p).1 ∧ Good st' ∧
      st'.sh.locked = false ∧ st' = { st with sh := (CacheConc.clean st.sh env p).1 } := by
  have h2 := hr.clean env p
  have h3 := clean_flag h env hp
  rw [h3] at h2
  refine ⟨_, _, clean_ok h hf env hp, ?_, h2.1, h.clean env p, (clean_keeps _ _ _ h3).trans hf, rfl⟩
  obtain ⟨n, hn⟩ := Option.isSome_iff_exists.1 h2.2.symm
  rw [hn, seq_clean_num hn, hr.holds.pile, h2.1.holds.pile]

section

variable {W : World D} {v : Str → Int → Bool}

theorem plain_ask (hW : ∀ n k t, W.validator n k t = .answer (v k t)) (call : State D → Env → Op D → Ran D (Out D)) {st : State D}
    (hv : st.sh.hasValidator = true) (k : Str) (t : Int) : ask W call st k t = .ret { st with asked := st.asked + 1 } (v k t) := by
  unfold ask
  rw [if_pos hv, hW]
  rfl

theorem same_getDrop {st : State D} {c : Cache D} (h : Good st) (hf : st.sh.locked = false) (hr : Rep st.sh c) (k : Str) :
    Same (getDrop st k) (Cache.del c k, .got none true) := by
  rw [getDrop_free hf]
  exact ⟨rfl, hr.del k, h.del k, hf⟩

theorem same_get (hW : ∀ n k t, W.validator n k t = .answer (v k t)) (call : State D → Env → Op D → Ran D (Out D)) {st : State D}
    {c : Cache D} (h : Good st) (hf : st.sh.locked = false) (hr : Rep st.sh c) (env : Env) (hv : env.valid = v) (k : Str) :
    Same (get W call st env k) (Cache.step c env (.get k)) := by
  rw [get_free W call hf]
  cases hk : st.sh.items.get k with
  | none =>
    simp only [Cache.step, Cache.get, hr.holds.items.get_none hk]
    exact ⟨rfl, hr, h, hf⟩
  | some id =>
    obtain ⟨e, hce, he⟩ := hr.holds.items.get_some hk
    dsimp only
    rw [he]
    dsimp only
    have hstep : Cache.step c env (.get k) =
        if (st.sh.hasValidator && !v k e.ctime) || (decide (st.sh.expire ≠ 0) && decide (e.ctime + st.sh.expire < env.clk 1)) then (Cache.del c k, .got none true)
        else ({ c with items := c.items.set k { e with rtime := env.clk 2 }, pile := removeFromPile c.pile k ++ [k] }, .got (some e.data) false) := by
      simp only [Cache.step, Cache.get, hce, hr.holds.expire, hr.holds.hasValidator, hv]
      cases (st.sh.hasValidator && !v k e.ctime) <;>
        cases (decide (st.sh.expire ≠ 0) && decide (e.ctime + st.sh.expire < env.clk 1)) <;> rfl
    rw [hstep]
    have hasked : ∃ n, (if st.sh.hasValidator then ask W call st k e.ctime else .ret st true) =
        .ret { st with asked := n } (!(st.sh.hasValidator && !v k e.ctime)) := by
      cases hb : st.sh.hasValidator with
      | true => exact ⟨st.asked + 1, by rw [if_pos rfl, plain_ask hW call hb]; simp⟩
      | false => exact ⟨st.asked, by simp⟩
    obtain ⟨n, hn⟩ := hasked
    rw [hn, Ran.bind_ret]
    cases hb : (st.sh.hasValidator && !v k e.ctime) with
    | true =>
      simp only [Bool.not_true, Bool.not_false, if_true, Bool.true_or]
      exact same_getDrop (h.asked n) hf hr k
    | false =>
      simp only [Bool.not_false, Bool.not_true, Bool.false_or]
      rw [if_neg (by simp)]
      by_cases hx : st.sh.expire ≠ 0 ∧ e.ctime + st.sh.expire < env.clk 1
      · rw [if_pos hx, if_pos (by simp [hx.1, hx.2])]
        exact same_getDrop (h.asked n) hf hr k
      · rw [if_neg hx, if_neg (by simpa using hx)]
        refine ⟨rfl, ?_, (h.asked n).touch id (env.clk 2) k, hf⟩
        refine ⟨⟨hr.holds.maxitems, hr.holds.expire, hr.holds.hasValidator, by simp [hr.holds.pile], ?_⟩, hr.nodup, hr.ids⟩
        exact hr.holds.items.modify hr.ids hk hce _

/-- Whether the validator refuses an entry. -/
def bad (v : Str → Int → Bool) (heap : List (Entry D)) (p : Str × Nat) : Bool :=
  match heap[p.2]? with
  | some e => !v p.1 e.ctime
  | none => false

theorem seq_verifyLoop (env : Env) : ∀ (l : List (Str × Entry D)) (c : Cache D) (i : Int),
    Cache.verifyLoop env l c i = (((l.filter fun p => !env.valid p.1 p.2.ctime).map Prod.fst).foldl forget c,
      i + ((l.filter fun p => !env.valid p.1 p.2.ctime).length : Nat)) := by
  intro l
  induction l with
  | nil => intro c i; simp [Cache.verifyLoop]
  | cons p l ih =>
    intro c i
    obtain ⟨k, x⟩ := p
    simp only [Cache.verifyLoop, List.filter_cons]
    split
    · rename_i hb
      rw [ih]
      simp only [List.map_cons, List.foldl_cons, List.length_cons, Prod.mk.injEq]
      exact ⟨rfl, by omega⟩
    · rename_i hb
      rw [ih]

theorem foldr_del_get (items0 : AMap Nat) (k : Str) : ∀ l : List Str,
    (l.foldr (fun k m => AMap.del m k) items0).get k = if k ∈ l then none else items0.get k := by
  intro l
  induction l with
  | nil => simp
  | cons x l ih =>
    rw [List.foldr_cons, AMap.get_del, ih]
    by_cases h : k = x <;> simp [h]

theorem plain_loop (hW : ∀ n k t, W.validator n k t = .answer (v k t)) (call : State D → Env → Op D → Ran D (Out D)) (c1 : Cache D)
    (items0 : AMap Nat) (heap0 : List (Entry D)) (h0 : items0.Nodup) (i0 : Int) :
    ∀ (f : Nat) (todo done : List (Str × Nat)) (st : State D), todo.length < f → (todo ++ done).Perm items0 →
      Good st → st.sh.locked = false → st.sh.heap = heap0 → st.sh.hasValidator = true →
      st.sh.items = ((done.filter (bad v heap0)).map Prod.fst).foldr (fun k m => AMap.del m k) items0 →
      Rep st.sh (((done.filter (bad v heap0)).map Prod.fst).foldr (fun k c => forget c k) c1) →
      ∃ st', verifyLoop W call st.left.length f todo done (i0 + ((done.filter (bad v heap0)).length : Nat)) st =
          .ret st' (.num (i0 + ((items0.filter (bad v heap0)).length : Nat))) ∧ Good st' ∧ st'.sh.locked = false ∧
        Rep st'.sh (((items0.filter (bad v heap0)).map Prod.fst).foldl forget c1) := by
  intro f
  induction f with
  | zero => intro todo done st hf; exact absurd hf (Nat.not_lt_zero _)
  | succ f ih =>
    intro todo done st hf hp hg hfree hh hv hit hr
    have hmap : mapOf st st.left.length = st.sh.items := by simp [mapOf]
    have hpn : ((todo ++ done).map Prod.fst).Nodup := (hp.map Prod.fst).nodup_iff.2 h0
    have hget : ∀ k, st.sh.items.get k = if k ∈ (done.filter (bad v heap0)).map Prod.fst then none else items0.get k := by
      intro k; rw [hit, foldr_del_get]
    have htodo : ∀ p ∈ todo, st.sh.items.get p.1 = some p.2 := by
      intro p hpt
      rw [hget, if_neg]
      · exact AMap.get_of_mem h0 (hp.mem_iff.1 (List.mem_append_left _ hpt))
      · intro hm
        obtain ⟨q, hq, hqp⟩ := List.mem_map.1 hm
        rw [List.map_append, List.nodup_append] at hpn
        exact hpn.2.2 p.1 (List.mem_map_of_mem hpt) q.1 (List.mem_map_of_mem (List.mem_filter.1 hq).1) hqp.symm
    rw [verifyLoop]
    cases hx : rangeNext W st st.left.length todo done with
    | none =>
      have htn : todo = [] := by
        have hforced : todo.find? (fun p => (mapOf st st.left.length).get p.1 == some p.2) = none := by
          unfold rangeNext at hx
          dsimp only at hx
          split at hx
          · exact hx
          · split at hx
            · split at hx
              · exact hx
              · cases hx
            · exact hx
        rw [List.find?_eq_none] at hforced
        cases todo with
        | nil => rfl
        | cons p t =>
          have := hforced p (List.mem_cons_self ..)
          rw [hmap, htodo p (List.mem_cons_self ..)] at this
          simp at this
      subst htn
      rw [List.nil_append] at hp
      have hb := hp.filter (bad v heap0)
      refine ⟨{ st with asked := st.asked + 1 }, ?_, hg.asked _, hfree, ?_⟩
      · dsimp only
        rw [hb.length_eq]
      · rw [← CacheConc.foldl_forget_perm (hb.map Prod.fst)]
        rw [← CacheConc.foldl_forget_perm ((List.reverse_perm _)), List.foldl_reverse]
        exact hr
    | some p =>
      obtain ⟨k, id⟩ := p
      have hk := rangeNext_get hx
      rw [hmap] at hk
      have hmem : (k, id) ∈ todo := by
        have hfind : ∀ p, todo.find? (fun p => (mapOf st st.left.length).get p.1 == some p.2) = some p → p ∈ todo :=
          fun p hp => List.mem_of_find?_eq_some hp
        unfold rangeNext at hx
        dsimp only at hx
        split at hx
        · exact hfind _ hx
        · split at hx
          · split at hx
            · exact hfind _ hx
            · rename_i hnd
              cases hx
              have h1 : items0.get k = some id := by
                have := hget k
                rw [hk] at this
                split at this
                · cases this
                · exact this.symm
              rcases List.mem_append.1 (hp.mem_iff.2 (AMap.mem_of_get h1)) with h2 | h2
              · exact h2
              · exact absurd h2 hnd
          · exact hfind _ hx
      obtain ⟨e, he, _⟩ := hg.items k id hk
      dsimp only
      rw [he]
      dsimp only
      rw [plain_ask hW call (by exact hv), Ran.bind_ret]
      have hlen : (todo.erase (k, id)).length < f := by
        have h1 := List.length_erase_of_mem hmem
        have h2 : 0 < todo.length := List.length_pos_of_mem hmem
        omega
      have hperm : (todo.erase (k, id) ++ (k, id) :: done).Perm items0 := by
        refine List.Perm.trans ?_ hp
        refine List.perm_middle.trans ?_
        exact (List.perm_cons_erase hmem).symm.append_right done
      have hbad : bad v heap0 (k, id) = !v k e.ctime := by
        unfold bad
        rw [← hh]
        dsimp only
        rw [he]
      cases hb : v k e.ctime with
      | true =>
        rw [hb] at hbad
        have hdone : ((k, id) :: done).filter (bad v heap0) = done.filter (bad v heap0) := by
          rw [List.filter_cons_of_neg]; simp [hbad]
        have := ih (todo.erase (k, id)) ((k, id) :: done) { st with asked := st.asked + 1 + 1 } hlen hperm (hg.asked _) hfree hh hv
          (by rw [hdone]; exact hit) (by rw [hdone]; exact hr)
        rw [hdone] at this
        exact this
      | false =>
        rw [hb] at hbad
        have hdone : ((k, id) :: done).filter (bad v heap0) = (k, id) :: done.filter (bad v heap0) := by
          rw [List.filter_cons_of_pos]; simp [hbad]
        rw [drop_free (by exact hfree)]
        simp only [Bool.not_false, if_true, Ran.bind_ret]
        have := ih (todo.erase (k, id)) ((k, id) :: done) { st with asked := st.asked + 1 + 1, sh := { st.sh with items := st.sh.items.del k } } hlen hperm
          ((hg.asked (st.asked + 1 + 1)).drop k) hfree hh hv (by rw [hdone]; simp only [List.map_cons, List.foldr_cons]; rw [hit])
          (by rw [hdone]; exact hr.forget k)
        rw [hdone] at this
        rw [List.length_cons, Int.natCast_add, ← Int.add_assoc] at this
        exact this

theorem same_verify (hW : ∀ n k t, W.validator n k t = .answer (v k t)) (call : State D → Env → Op D → Ran D (Out D)) {st : State D}
    {c : Cache D} (h : Good st) (hfree : st.sh.locked = false) (hr : Rep st.sh c) (env : Env) (hv : env.valid = v) {f : Nat}
    (hf : st.sh.items.length < f) : Same (verify W call f st env) (Cache.step c env .verify) := by
  obtain ⟨st1, n, h1, h2, h3, h4, h5, hst⟩ := same_clean h hfree hr env (p := 0) (by decide)
  unfold verify
  rw [h1, Ran.bind_ret]
  unfold Cache.step Cache.verify
  dsimp only
  generalize hc1 : Cache.clean c env 0 = r at *
  obtain ⟨c1, o⟩ := r
  dsimp only at h2 h3 ⊢
  subst h2
  dsimp only
  rw [h3.holds.hasValidator]
  split
  · rename_i hb
    have hl : st1.sh.items.length < f := by
      have h5 : st1.sh.items.length ≤ st.sh.items.length := by
        have h6 := Xcore.nodup_length_le (l := st1.sh.items.keys) (m := st.sh.items.keys) h3.nodup (by
          intro k hk
          obtain ⟨id, hid⟩ := (AMap.mem_keys_iff _ _).1 hk
          rw [hst] at hid
          exact (AMap.mem_keys_iff _ _).2 ⟨id, (CacheConc.clean_spec st.sh env 0 h.nodup).2.2 k id hid⟩)
        simpa [AMap.keys] using h6
      omega
    obtain ⟨st', h6, h7, h8, h9⟩ := plain_loop hW call c1 st1.sh.items st1.sh.heap h3.nodup n f st1.sh.items [] st1 hl (by simp) h4 h5 rfl hb rfl h3
    simp only [List.filter_nil, List.length_nil, Int.natCast_zero, Int.add_zero] at h6
    rw [h6, seq_verifyLoop]
    have hsame : SameItems st1.sh.heap (st1.sh.items.filter (bad v st1.sh.heap)) (c1.items.filter fun p => !env.valid p.1 p.2.ctime) := by
      refine h3.holds.items.filter ?_
      intro k id e he
      rw [bad, he, hv]
    have hk := hsame.keys
    unfold AMap.keys at hk
    refine ⟨?_, ?_, h7, h8⟩
    · dsimp only
      rw [← hsame.length]
    · dsimp only
      rw [hk]
      exact h9
  · exact ⟨rfl, h3, h4, h5⟩

theorem same_exec (hW : ∀ n k t, W.validator n k t = .answer (v k t)) {st : State D} {c : Cache D} (h : Good st) (hfree : st.sh.locked = false)
    (hr : Rep st.sh c) (env : Env) (hv : env.valid = v) (op : Op D) (hm : Mild op) {f : Nat} (hf : st.sh.items.length < f) :
    Same (exec W (f + 1) st env op) (Cache.step c env op) := by
  cases op with
  | set k d =>
    unfold exec Cache.step; dsimp only
    rw [set_free hfree, CacheConc.set_eq]
    have h2 := hr.set env k d
    have hlen : (halfSet c env k d).items.length = (CacheConc.set st.sh env k d).items.length := h2.holds.items.length
    rw [hlen, hr.holds.maxitems]
    by_cases hc : 0 < st.sh.maxitems ∧ st.sh.maxitems ≤ (CacheConc.set st.sh env k d).items.length
    · rw [if_pos hc, if_pos hc]
      obtain ⟨st1, n, h3, h4, h5, h6, h7, _⟩ := same_clean (h.set env k d) hfree h2 env (p := 10) (by decide)
      rw [h3, Ran.bind_ret, h4]
      exact ⟨rfl, h5, h6, h7⟩
    · rw [if_neg hc, if_neg hc]
      exact ⟨rfl, h2, h.set env k d, hfree⟩
  | get k => exact same_get hW _ h hfree hr env hv k
  | del k =>
    unfold exec; dsimp only
    rw [del_free hfree]
    exact ⟨rfl, hr.del k, h.del k, hfree⟩
  | count =>
    unfold exec; dsimp only
    rw [count_free hfree]
    refine ⟨?_, hr, h, hfree⟩
    simp only [Cache.step, Cache.count, hr.holds.items.length]
  | clean p =>
    obtain ⟨st1, n, h3, h4, h5, h6, h7, _⟩ := same_clean h hfree hr env (p := p) hm
    unfold exec Cache.step; dsimp only
    rw [h3, h4]
    exact ⟨rfl, h5, h6, h7⟩
  | verify => exact same_verify hW _ h hfree hr env hv hf
  | flush =>
    have h1 := fine_flush (g := False) h
    unfold exec; dsimp only
    rw [flush_free hfree] at h1 ⊢
    exact ⟨rfl, ⟨⟨hr.holds.maxitems, hr.holds.expire, hr.holds.hasValidator, hr.holds.pile, .nil⟩, AMap.nodup_nil, by simp⟩, h1.1, hfree⟩
  | setMaxitems m =>
    exact ⟨rfl, ⟨⟨rfl, hr.holds.expire, hr.holds.hasValidator, hr.holds.pile, hr.holds.items⟩, hr.nodup, hr.ids⟩,
      ⟨h.nodup, h.sub, h.items, h.left⟩, hfree⟩
  | setExpire m =>
    exact ⟨rfl, ⟨⟨hr.holds.maxitems, rfl, hr.holds.hasValidator, hr.holds.pile, hr.holds.items⟩, hr.nodup, hr.ids⟩,
      ⟨h.nodup, h.sub, h.items, h.left⟩, hfree⟩
  | setValidator m =>
    exact ⟨rfl, ⟨⟨hr.holds.maxitems, hr.holds.expire, rfl, hr.holds.pile, hr.holds.items⟩, hr.nodup, hr.ids⟩,
      ⟨h.nodup, h.sub, h.items, h.left⟩, hfree⟩

theorem same_run (hW : ∀ n k t, W.validator n k t = .answer (v k t)) : ∀ (h : List (Env × Op D)) (st : State D) (c : Cache D), Good st →
    st.sh.locked = false → Rep st.sh c → (∀ x ∈ h, x.1.valid = v) → (∀ x ∈ h, Mild x.2) →
    ∃ f st' outs, run W f st h = .ret st' outs ∧ Rep st'.sh (Cache.run c h).1 ∧ outs = (Cache.run c h).2.map some := by
  intro h
  induction h with
  | nil => intro st c hg _ hr _ _; exact ⟨0, st, [], rfl, hr, rfl⟩
  | cons x h ih =>
    intro st c hg hfree hr hv hm
    obtain ⟨env, op⟩ := x
    have h1 := same_exec hW hg hfree hr env (hv _ (List.mem_cons_self ..)) op (hm _ (List.mem_cons_self ..)) (Nat.lt_succ_self st.sh.items.length)
    cases hx : exec W (st.sh.items.length + 1 + 1) st env op with
    | ret st1 o =>
      rw [hx] at h1
      obtain ⟨h2, h3, h4, h5⟩ := h1
      obtain ⟨f, st', outs, h6, h7, h8⟩ := ih st1 _ h4 h5 h3 (fun x hx => hv x (List.mem_cons_of_mem _ hx)) (fun x hx => hm x (List.mem_cons_of_mem _ hx))
      refine ⟨st.sh.items.length + 1 + 1 + f, st', some o :: outs, ?_, h7, by rw [h8, h2]; rfl⟩
      have h9 : run W (st.sh.items.length + 1 + 1 + f) st1 h = .ret st' outs := by
        rcases le_run W f (st.sh.items.length + 1 + 1) h st1 with h6' | h6'
        · rw [h6] at h6'; cases h6'
        · rw [Nat.add_comm, ← h6']; exact h6
      have h10 : exec W (st.sh.items.length + 1 + 1 + f) st env op = .ret st1 o := by
        rcases le_exec_add W (st.sh.items.length + 1 + 1) f st env op with h6' | h6'
        · rw [hx] at h6'; cases h6'
        · rw [← h6']; exact hx
      unfold run
      rw [h10]
      dsimp only
      rw [h9]
      rfl
    | panic st1 => rw [hx] at h1; exact h1.elim
    | stuck => rw [hx] at h1; exact h1.elim
    | deep => rw [hx] at h1; exact h1.elim

end

end Xcore.V1.CacheValidator
