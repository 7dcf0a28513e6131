import Verif.Spec.V1.Cache
import Verif.Proof.V1.Cache

/-! # XCache of version 1 used by any number of goroutines: invariants -/

namespace Xcore.V1.CacheConc

open Xcore.Cache (Env)
open Xcore.V1.Cache (Entry removeFromPile)

variable {D : Type}

/-- The entry a goroutine in the middle of a Get is looking at. -/
def PC.holds : PC → Option (Str × Nat)
  | .loaded k id | .valOk k id | .good k id | .touch k id | .removing k id _ | .removed k id | .adding k id _ | .doomed k id => some (k, id)
  | _ => none

/-- The data of entry `id` were stored under `k`. -/
def Known (st : St D) (k : Str) (id : Nat) : Prop := ∃ e, st.sh.heap[id]? = some e ∧ Obs.stored k e.data ∈ st.obs

/-- Invariant of all schedules. -/
structure Inv (st : St D) : Prop where
  nodup : st.sh.items.Nodup
  items : ∀ k id, st.sh.items.get k = some id → Known st k id
  pcs : ∀ t k id, (st.pcs t).holds = some (k, id) → Known st k id
  obs : ∀ pre t k v b post, st.obs = pre ++ Obs.returned t k (some v) b :: post → Obs.stored k v ∈ pre ∧ b = false

theorem Inv.init (m e : Int) : Inv (init m e : St D) :=
  ⟨AMap.nodup_nil, fun _ _ h => by simp [CacheConc.init] at h, fun _ _ _ h => by simp [CacheConc.init, PC.holds] at h,
   fun pre t k v b post h => by simp [CacheConc.init] at h⟩

theorem foldl_del_nodup (l : List Str) : ∀ {m : AMap Nat}, m.Nodup → (l.foldl (fun m k => AMap.del m k) m).Nodup := by
  induction l with
  | nil => intro m h; exact h
  | cons k l ih => intro m h; exact ih (AMap.nodup_del h k)

theorem foldl_del_get (l : List Str) : ∀ {m : AMap Nat} {k : Str} {id : Nat},
    (l.foldl (fun m k => AMap.del m k) m).get k = some id → m.get k = some id := by
  induction l with
  | nil => intro m k id h; exact h
  | cons x l ih =>
    intro m k id h
    have := ih h
    rw [AMap.get_del] at this
    split at this
    · cases this
    · exact this

theorem clean_spec (s : Shared D) (env : Env) (p : Int) (hn : s.items.Nodup) :
    (clean s env p).1.items.Nodup ∧ (clean s env p).1.heap = s.heap ∧
      ∀ k id, (clean s env p).1.items.get k = some id → s.items.get k = some id := by
  unfold clean
  have h1 : (if s.expire ≠ 0 then
      s.items.filter (fun p => match s.heap[p.2]? with
        | some e => !decide (e.ctime + s.expire < env.clkAt p.1)
        | none => true)
    else s.items : AMap Nat).Nodup := by
    split
    · exact AMap.nodup_filter hn _
    · exact hn
  have h2 : ∀ k id, (if s.expire ≠ 0 then
      s.items.filter (fun p => match s.heap[p.2]? with
        | some e => !decide (e.ctime + s.expire < env.clkAt p.1)
        | none => true)
    else s.items : AMap Nat).get k = some id → s.items.get k = some id := by
    intro k id
    split
    · rw [AMap.get_filter hn]
      cases s.items.get k with
      | none => simp
      | some x =>
        simp only [Option.bind_some]
        generalize (match s.heap[x]? with
          | some e => !decide (e.ctime + s.expire < env.clkAt k)
          | none => true) = b
        cases b <;> simp
    · intro h; exact h
  dsimp only
  revert h1 h2
  generalize (if s.expire ≠ 0 then
      s.items.filter (fun p => match s.heap[p.2]? with
        | some e => !decide (e.ctime + s.expire < env.clkAt p.1)
        | none => true)
    else s.items : AMap Nat) = items
  intro h1 h2
  split
  · exact ⟨foldl_del_nodup _ h1, rfl, fun k id h => h2 _ _ (foldl_del_get _ h)⟩
  · exact ⟨foldl_del_nodup _ h1, rfl, fun k id h => h2 _ _ (foldl_del_get _ h)⟩

theorem obs_append {obs new : List (Obs D)}
    (h : ∀ pre t k v b post, obs = pre ++ Obs.returned t k (some v) b :: post → Obs.stored k v ∈ pre ∧ b = false)
    (hn : ∀ pre t k v b post, new = pre ++ Obs.returned t k (some v) b :: post → Obs.stored k v ∈ obs ++ pre ∧ b = false) :
    ∀ pre t k v b post, obs ++ new = pre ++ Obs.returned t k (some v) b :: post → Obs.stored k v ∈ pre ∧ b = false := by
  intro pre t k v b post he
  rw [List.append_eq_append_iff] at he
  rcases he with ⟨as, h1, h2⟩ | ⟨bs, h1, h2⟩
  · subst h1
    exact hn as t k v b post h2
  · cases bs with
    | nil =>
      simp only [List.append_nil] at h1; subst h1
      simp only [List.nil_append] at h2
      have := hn [] t k v b post h2.symm
      simpa using this
    | cons x bs =>
      simp only [List.cons_append, List.cons.injEq] at h2
      obtain ⟨rfl, h2⟩ := h2
      exact h pre t k v b bs h1

/-- A step that keeps heap and adds no returned data. -/
theorem Inv.mk' {st st' : St D} (h : Inv st) (new : List (Obs D)) (hh : ∀ (id : Nat) (e : Entry D), st.sh.heap[id]? = some e → ∃ e', st'.sh.heap[id]? = some e' ∧ e'.data = e.data)
    (ho : st'.obs = st.obs ++ new) (hnew : ∀ t k v b, Obs.returned t k (some v) b ∈ new → Obs.stored k v ∈ st.obs ∧ b = false) (hn : st'.sh.items.Nodup)
    (hi : ∀ k id, st'.sh.items.get k = some id → st.sh.items.get k = some id ∨ Known st' k id)
    (hp : ∀ t k id, (st'.pcs t).holds = some (k, id) → (st.pcs t).holds = some (k, id) ∨ st.sh.items.get k = some id) : Inv st' := by
  have hk : ∀ k id, Known st k id → Known st' k id := by
    rintro k id ⟨e, h1, h2⟩
    obtain ⟨e', h3, h4⟩ := hh id e h1
    refine ⟨e', h3, ?_⟩
    rw [h4, ho]; exact List.mem_append_left _ h2
  refine ⟨hn, ?_, ?_, ?_⟩
  · intro k id hg
    rcases hi k id hg with h1 | h1
    · exact hk _ _ (h.items _ _ h1)
    · exact h1
  · intro t k id hg
    rcases hp t k id hg with h1 | h1
    · exact hk _ _ (h.pcs _ _ _ h1)
    · exact hk _ _ (h.items _ _ h1)
  · rw [ho]
    refine obs_append h.obs ?_
    intro pre t k v b post he
    have := hnew t k v b (by rw [he]; simp)
    exact ⟨List.mem_append_left _ this.1, this.2⟩

theorem upd_holds {f : Nat → PC} {t j : Nat} {p : PC} {x : Str × Nat} (h : (upd f t p j).holds = some x) :
    (f j).holds = some x ∨ (j = t ∧ p.holds = some x) := by
  unfold upd at h
  split at h
  · exact Or.inr ⟨by assumption, h⟩
  · exact Or.inl h

theorem Inv.step {st st' : St D} (h : Inv st) (a : Act D) (ha : apply st a = some st') : Inv st' := by
  have same : ∀ (id : Nat) (e : Entry D), st.sh.heap[id]? = some e → ∃ e', st.sh.heap[id]? = some e' ∧ e'.data = e.data := fun id e h => ⟨e, h, rfl⟩
  have hcl : ∀ env p, ∀ (id : Nat) (e : Entry D), st.sh.heap[id]? = some e → ∃ e', (clean st.sh env p).1.heap[id]? = some e' ∧ e'.data = e.data := by
    intro env p id e he
    rw [(clean_spec st.sh env p h.nodup).2.1]; exact ⟨e, he, rfl⟩
  have panic_obs : ∀ (b : Bool) (p : Int), ∀ t k v b', Obs.returned t k (some v) b' ∈ (if b then [] else [Obs.panicked p] : List (Obs D)) → Obs.stored k v ∈ st.obs ∧ b' = false := by
    intro b p t k v b' hm
    cases b <;> simp at hm
  have none_obs : ∀ t k v b', Obs.returned t k (some v) b' ∈ ([] : List (Obs D)) → Obs.stored k v ∈ st.obs ∧ b' = false := by
    intro t k v b' hm; simp at hm
  cases a with
  | set t env k d =>
    simp only [apply] at ha
    split at ha
    · simp only [Option.some.injEq] at ha; subst ha
      refine h.mk' [.stored k d] ?_ rfl (by simp) (AMap.nodup_set h.nodup _ _) ?_ ?_
      · intro id e he
        refine ⟨e, ?_, rfl⟩
        simp only [set]
        rw [List.getElem?_append_left]; exact he
        exact (List.getElem?_eq_some_iff.1 he).1
      · intro k' id hg
        simp only [set] at hg
        rw [AMap.get_set] at hg
        split at hg
        · right
          rename_i hk; subst hk
          simp only [Option.some.injEq] at hg; subst hg
          exact ⟨{ ctime := env.clk 0, rtime := env.clk 1, data := d }, by simp [set], by simp⟩
        · exact Or.inl hg
      · intro j k' id hj
        rcases upd_holds hj with h1 | ⟨_, h1⟩
        · exact Or.inl h1
        · simp [PC.holds] at h1
    · cases ha
  | setFull t env =>
    simp only [apply] at ha
    split at ha
    · split at ha
      · simp only [Option.some.injEq] at ha; subst ha
        refine h.mk' _ (hcl env 10) rfl (panic_obs _ _) (clean_spec _ _ _ h.nodup).1 (fun k id hg => Or.inl ((clean_spec _ _ _ h.nodup).2.2 _ _ hg)) ?_
        intro j k' id hj
        rcases upd_holds hj with h1 | ⟨_, h1⟩
        · exact Or.inl h1
        · simp [PC.holds] at h1
      · cases ha
    · cases ha
  | setOk t =>
    simp only [apply] at ha
    split at ha
    · split at ha
      · cases ha
      · simp only [Option.some.injEq] at ha; subst ha
        refine h.mk' [] same (by simp) none_obs h.nodup (fun _ _ hg => Or.inl hg) ?_
        intro j k' id hj
        rcases upd_holds hj with h1 | ⟨_, h1⟩
        · exact Or.inl h1
        · simp [PC.holds] at h1
    · cases ha
  | del k =>
    simp only [apply] at ha
    split at ha
    · cases ha
    · simp only [Option.some.injEq] at ha; subst ha
      refine h.mk' [] same (by simp) none_obs (AMap.nodup_del h.nodup k) ?_ (fun _ _ _ hp => Or.inl hp)
      intro k' id hg
      simp only [del] at hg
      rw [AMap.get_del] at hg
      split at hg
      · cases hg
      · exact Or.inl hg
  | clean env p =>
    simp only [apply] at ha
    split at ha
    · cases ha
    · simp only [Option.some.injEq] at ha; subst ha
      exact h.mk' _ (hcl env p) rfl (panic_obs _ _) (clean_spec _ _ _ h.nodup).1 (fun k id hg => Or.inl ((clean_spec _ _ _ h.nodup).2.2 _ _ hg))
        (fun _ _ _ hp => Or.inl hp)
  | flush =>
    simp only [apply] at ha
    split at ha
    · cases ha
    · simp only [Option.some.injEq] at ha; subst ha
      exact h.mk' [] same (by simp) none_obs AMap.nodup_nil (fun k id hg => by simp at hg) (fun _ _ _ hp => Or.inl hp)
  | setMaxitems m =>
    simp only [apply, Option.some.injEq] at ha; subst ha
    exact h.mk' [] same (by simp) none_obs h.nodup (fun _ _ hg => Or.inl hg) (fun _ _ _ hp => Or.inl hp)
  | setExpire m =>
    simp only [apply, Option.some.injEq] at ha; subst ha
    exact h.mk' [] same (by simp) none_obs h.nodup (fun _ _ hg => Or.inl hg) (fun _ _ _ hp => Or.inl hp)
  | setValidator m =>
    simp only [apply, Option.some.injEq] at ha; subst ha
    exact h.mk' [] same (by simp) none_obs h.nodup (fun _ _ hg => Or.inl hg) (fun _ _ _ hp => Or.inl hp)
  | tear pile =>
    simp only [apply, Option.some.injEq] at ha; subst ha
    exact h.mk' [] same (by simp) none_obs h.nodup (fun _ _ hg => Or.inl hg) (fun _ _ _ hp => Or.inl hp)
  | getStart t k =>
    simp only [apply] at ha
    split at ha
    · split at ha
      · rename_i id0 hid
        simp only [Option.some.injEq] at ha; subst ha
        refine h.mk' [] same (by simp) none_obs h.nodup (fun _ _ hg => Or.inl hg) ?_
        intro j k' id hj
        rcases upd_holds hj with h1 | ⟨_, h1⟩
        · exact Or.inl h1
        · simp only [PC.holds, Option.some.injEq, Prod.mk.injEq] at h1
          obtain ⟨rfl, rfl⟩ := h1
          exact Or.inr hid
      · simp only [Option.some.injEq] at ha; subst ha
        exact h.mk' [.returned t k none false] same rfl (by simp) h.nodup (fun _ _ hg => Or.inl hg) (fun _ _ _ hp => Or.inl hp)
    · cases ha
  | checkVal t ok =>
    simp only [apply] at ha
    split at ha
    · rename_i k0 id0 hpc
      split at ha
      all_goals
        simp only [Option.some.injEq] at ha; subst ha
        refine h.mk' [] same (by simp) none_obs h.nodup (fun _ _ hg => Or.inl hg) ?_
        intro j k' id hj
        rcases upd_holds hj with h1 | ⟨h0, h1⟩
        · exact Or.inl h1
        · subst h0; rw [hpc]; exact Or.inl h1
    · cases ha
  | checkExp t now =>
    simp only [apply] at ha
    split at ha
    · rename_i k0 id0 hpc
      split at ha
      · split at ha
        all_goals
          simp only [Option.some.injEq] at ha; subst ha
          refine h.mk' [] same (by simp) none_obs h.nodup (fun _ _ hg => Or.inl hg) ?_
          intro j k' id hj
          rcases upd_holds hj with h1 | ⟨h0, h1⟩
          · exact Or.inl h1
          · subst h0; rw [hpc]; exact Or.inl h1
      · cases ha
    · cases ha
  | writeRtime t now =>
    simp only [apply] at ha
    split at ha
    · rename_i k0 id0 hpc
      simp only [Option.some.injEq] at ha; subst ha
      refine h.mk' [] ?_ (by simp) none_obs h.nodup (fun _ _ hg => Or.inl hg) ?_
      · intro id e he
        dsimp only
        rw [List.getElem?_modify, he]
        refine ⟨_, rfl, ?_⟩
        split <;> rfl
      · intro j k' id hj
        rcases upd_holds hj with h1 | ⟨h0, h1⟩
        · exact Or.inl h1
        · subst h0; rw [hpc]; exact Or.inl h1
    · cases ha
  | loadPile t =>
    simp only [apply] at ha
    split at ha
    case h_3 => cases ha
    all_goals
      rename_i k0 id0 hpc
      simp only [Option.some.injEq] at ha; subst ha
      refine h.mk' [] same (by simp) none_obs h.nodup (fun _ _ hg => Or.inl hg) ?_
      intro j k' id hj
      rcases upd_holds hj with h1 | ⟨h0, h1⟩
      · exact Or.inl h1
      · subst h0; rw [hpc]; exact Or.inl h1
  | storePile t =>
    simp only [apply] at ha
    split at ha
    · rename_i k0 id0 pile hpc
      simp only [Option.some.injEq] at ha; subst ha
      refine h.mk' [] same (by simp) none_obs h.nodup (fun _ _ hg => Or.inl hg) ?_
      intro j k' id hj
      rcases upd_holds hj with h1 | ⟨h0, h1⟩
      · exact Or.inl h1
      · subst h0; rw [hpc]; exact Or.inl h1
    · rename_i k0 id0 pile hpc
      split at ha
      · rename_i e he
        simp only [Option.some.injEq] at ha; subst ha
        refine h.mk' [.returned t k0 (some e.data) false] same rfl ?_ h.nodup (fun _ _ hg => Or.inl hg) ?_
        · intro t' k' v b hm
          simp only [List.mem_singleton, Obs.returned.injEq, Option.some.injEq] at hm
          obtain ⟨rfl, rfl, rfl, rfl⟩ := hm
          obtain ⟨e', h1, h2⟩ := h.pcs t' k' id0 (by rw [hpc]; rfl)
          rw [he] at h1
          simp only [Option.some.injEq] at h1; subst h1
          exact ⟨h2, rfl⟩
        · intro j k' id hj
          rcases upd_holds hj with h1 | ⟨h0, h1⟩
          · exact Or.inl h1
          · simp [PC.holds] at h1
      · cases ha
    · cases ha
  | getDrop t =>
    simp only [apply] at ha
    split at ha
    · rename_i k0 id0 hl hpc
      simp only [Option.some.injEq] at ha; subst ha
      refine h.mk' [.returned t k0 none true] same rfl (by simp) (AMap.nodup_del h.nodup k0) ?_ ?_
      · intro k' id hg
        simp only [del] at hg
        rw [AMap.get_del] at hg
        split at hg
        · cases hg
        · exact Or.inl hg
      · intro j k' id hj
        rcases upd_holds hj with h1 | ⟨h0, h1⟩
        · exact Or.inl h1
        · simp [PC.holds] at h1
    · cases ha
  | verifyStart t env =>
    simp only [apply] at ha
    split at ha
    · simp only [Option.some.injEq] at ha; subst ha
      refine h.mk' _ (hcl env 0) rfl (panic_obs _ _) (clean_spec _ _ _ h.nodup).1 (fun k id hg => Or.inl ((clean_spec _ _ _ h.nodup).2.2 _ _ hg)) ?_
      intro j k' id hj
      rcases upd_holds hj with h1 | ⟨_, h1⟩
      · exact Or.inl h1
      · simp [PC.holds] at h1
    · cases ha
  | verifyPick t k ok =>
    simp only [apply] at ha
    split at ha
    · split at ha
      · simp only [Option.some.injEq] at ha; subst ha
        refine h.mk' [] same (by simp) none_obs h.nodup (fun _ _ hg => Or.inl hg) ?_
        intro j k' id hj
        rcases upd_holds hj with h1 | ⟨_, h1⟩
        · exact Or.inl h1
        · simp [PC.holds] at h1
      · simp only [Option.some.injEq] at ha; subst ha; exact h
    · cases ha
  | verifyDel t =>
    simp only [apply] at ha
    split at ha
    · simp only [Option.some.injEq] at ha; subst ha
      refine h.mk' [] same (by simp) none_obs (AMap.nodup_del h.nodup _) ?_ ?_
      · intro k' id hg
        dsimp only at hg
        rw [AMap.get_del] at hg
        split at hg
        · cases hg
        · exact Or.inl hg
      · intro j k' id hj
        rcases upd_holds hj with h1 | ⟨_, h1⟩
        · exact Or.inl h1
        · simp [PC.holds] at h1
    · cases ha
  | verifyEnd t =>
    simp only [apply] at ha
    split at ha
    · simp only [Option.some.injEq] at ha; subst ha
      refine h.mk' [] same (by simp) none_obs h.nodup (fun _ _ hg => Or.inl hg) ?_
      intro j k' id hj
      rcases upd_holds hj with h1 | ⟨_, h1⟩
      · exact Or.inl h1
      · simp [PC.holds] at h1
    · cases ha

theorem Inv.run {st st' : St D} (h : Inv st) (as : List (Act D)) (hr : runActs st as = some st') : Inv st' := by
  induction as generalizing st with
  | nil => simp only [runActs, Option.some.injEq] at hr; subst hr; exact h
  | cons a as ih =>
    simp only [runActs] at hr
    split at hr
    · rename_i st1 ha; exact ih (h.step a ha) hr
    · cases hr

/-- Once the mutex is locked for ever, nothing that needs it can be done, and nothing unlocks it. -/
theorem locked_step {st st' : St D} (hl : st.sh.locked = true) (a : Act D) (ha : apply st a = some st') :
    st'.sh.locked = true ∧ ¬ NeedsLock a := by
  cases a <;> simp only [apply, hl, NeedsLock, not_true_eq_false, not_false_eq_true, and_true, and_false] at ha ⊢
  all_goals first
    | (simp at ha; done)
    | (simp only [Option.some.injEq] at ha; subst ha; first | exact hl | rfl)
    | (split at ha <;> first
        | (cases ha; done)
        | (simp only [Option.some.injEq] at ha; subst ha; first | exact hl | rfl)
        | (split at ha <;> first
            | (cases ha; done)
            | (simp only [Option.some.injEq] at ha; subst ha; first | exact hl | rfl)
            | (split at ha <;> first
                | (cases ha; done)
                | (simp only [Option.some.injEq] at ha; subst ha; first | exact hl | rfl))))

theorem locked_run {st st' : St D} (hl : st.sh.locked = true) (as : List (Act D)) (hr : runActs st as = some st') :
    ∀ a ∈ as, ¬ NeedsLock a := by
  induction as generalizing st with
  | nil => simp
  | cons a as ih =>
    simp only [runActs] at hr
    split at hr
    · rename_i st1 ha
      obtain ⟨h1, h2⟩ := locked_step hl a ha
      intro b hb
      rcases List.mem_cons.1 hb with rfl | hb
      · exact h2
      · exact ih h1 hr b hb
    · cases hr

/-! ## Schedules in which the changes of the pile do not interleave -/

/-- Not between two accesses of the pile. -/
def PC.Outside : PC → Prop
  | .removing .. | .removed .. | .adding .. => False
  | _ => True

/-- Invariant of the calm schedules between the changes. -/
structure Kept (st : St D) : Prop where
  nodup : st.sh.items.Nodup
  sub : ∀ k id, st.sh.items.get k = some id → k ∈ st.sh.pile
  outside : ∀ t, (st.pcs t).Outside
  panics : ∀ p, Obs.panicked p ∈ st.obs → 100 < p

theorem foldl_del_none (l : List Str) : ∀ {m : AMap Nat} {k : Str}, k ∈ l → (l.foldl (fun m k => AMap.del m k) m).get k = none := by
  induction l with
  | nil => intro m k h; cases h
  | cons x l ih =>
    intro m k h
    rw [List.foldl_cons]
    by_cases hk : k ∈ l
    · exact ih hk
    · rcases List.mem_cons.1 h with rfl | h
      · cases hg : (l.foldl (fun m k => AMap.del m k) (AMap.del m k)).get k with
        | none => rfl
        | some id =>
          have := foldl_del_get l hg
          rw [AMap.get_del, if_pos rfl] at this
          cases this
      · exact absurd h hk

theorem foldl_length (s : Shared D) (env : Env) : (if s.expire ≠ 0 then
      s.items.filter (fun p => match s.heap[p.2]? with
        | some e => !decide (e.ctime + s.expire < env.clkAt p.1)
        | none => true)
    else s.items : AMap Nat).length ≤ s.items.length := by
  split
  · exact List.length_filter_le _ _
  · exact Nat.le_refl _

theorem clean_kept {s : Shared D} (hn : s.items.Nodup) (hs : ∀ k id, s.items.get k = some id → k ∈ s.pile) (env : Env) (p : Int) :
    (∀ k id, (clean s env p).1.items.get k = some id → k ∈ (clean s env p).1.pile) ∧ ((clean s env p).2 = false → 100 < p) := by
  have hlen : s.items.length ≤ s.pile.length := by
    have h1 : s.items.keys.length ≤ s.pile.length := nodup_length_le hn fun k hk => by
      obtain ⟨id, h⟩ := (AMap.mem_keys_iff _ _).1 hk
      exact hs k id h
    simpa [AMap.keys] using h1
  have hget := (clean_spec s env p hn).2.2
  constructor
  · intro k id hg
    have hk := hs k id (hget k id hg)
    unfold clean at hg ⊢
    dsimp only at hg ⊢
    have hl := foldl_length s env
    revert hg hl
    generalize (if s.expire ≠ 0 then
      s.items.filter (fun p => match s.heap[p.2]? with
        | some e => !decide (e.ctime + s.expire < env.clkAt p.1)
        | none => true)
    else s.items : AMap Nat) = items
    intro hg hl
    by_cases hle : ((Int.tdiv (items.length * p) 100).toNat) ≤ s.pile.length
    · rw [if_pos hle] at hg ⊢
      by_cases ht : k ∈ s.pile.take (Int.tdiv (items.length * p) 100).toNat
      · rw [foldl_del_none _ ht] at hg; cases hg
      · rw [← List.take_append_drop (Int.tdiv (items.length * p) 100).toNat s.pile, List.mem_append] at hk
        rcases hk with hk | hk
        · exact absurd hk ht
        · exact hk
    · rw [if_neg hle] at hg ⊢; exact hk
  · intro hf
    unfold clean at hf
    dsimp only at hf
    have hl := foldl_length s env
    revert hf hl
    generalize (if s.expire ≠ 0 then
      s.items.filter (fun p => match s.heap[p.2]? with
        | some e => !decide (e.ctime + s.expire < env.clkAt p.1)
        | none => true)
    else s.items : AMap Nat) = items
    intro hf hl
    by_cases hle : ((Int.tdiv (items.length * p) 100).toNat) ≤ s.pile.length
    · rw [if_pos hle] at hf; cases hf
    · by_cases hp : p ≤ 100
      · have := Xcore.Cache.cleanNum_le (n := items.length) hp
        unfold Xcore.Cache.cleanNum at this
        have hl' : items.length ≤ s.items.length := hl
        omega
      · omega

theorem upd_outside {f : Nat → PC} (h : ∀ t, (f t).Outside) {t : Nat} {p : PC} (hp : p.Outside) : ∀ j, (upd f t p j).Outside := by
  intro j
  unfold upd
  split
  · exact hp
  · exact h j

theorem mem_remove {l : List Str} {k x : Str} (h : x ∈ l) (hne : x ≠ k) : x ∈ removeFromPile l k := by
  rw [Xcore.V1.Cache.removeFromPile_eq, Xcore.Cache.removeFromPile_eq_erase]
  exact (List.mem_erase_of_ne hne).2 h

theorem sub_del {s : Shared D} (hs : ∀ k id, s.items.get k = some id → k ∈ s.pile) (k : Str) :
    ∀ k' id, (del s k).items.get k' = some id → k' ∈ (del s k).pile := by
  intro k' id hg
  simp only [del] at hg ⊢
  rw [AMap.get_del] at hg
  split at hg
  · cases hg
  · exact mem_remove (hs _ _ hg) (by assumption)

theorem panics_append {obs : List (Obs D)} (h : ∀ p, Obs.panicked p ∈ obs → 100 < p) {b : Bool} {q : Int} (hq : b = false → 100 < q) :
    ∀ p, Obs.panicked p ∈ obs ++ (if b then [] else [Obs.panicked q]) → 100 < p := by
  intro p hp
  cases b with
  | true => simp at hp; exact h p hp
  | false =>
    simp at hp
    rcases hp with hp | rfl
    · exact h p hp
    · exact hq rfl

theorem panics_append' {obs : List (Obs D)} (h : ∀ p, Obs.panicked p ∈ obs → 100 < p) {o : Obs D} (ho : ∀ p, o ≠ .panicked p) :
    ∀ p, Obs.panicked p ∈ obs ++ [o] → 100 < p := by
  intro p hp
  rcases List.mem_append.1 hp with hp | hp
  · exact h p hp
  · exact absurd (List.mem_singleton.1 hp).symm (ho p)

theorem Kept.other {st st' : St D} (h : Kept st) (a : Act D) (h1 : ∀ t, a ≠ .loadPile t) (h2 : ∀ t, a ≠ .storePile t) (h3 : ∀ p, a ≠ .tear p)
    (ha : apply st a = some st') : Kept st' := by
  cases a with
  | set t env k d =>
    simp only [apply] at ha
    split at ha
    · simp only [Option.some.injEq] at ha; subst ha
      refine ⟨AMap.nodup_set h.nodup _ _, ?_, upd_outside h.outside trivial, panics_append' h.panics (by simp)⟩
      intro k' id hg
      simp only [set] at hg ⊢
      rw [AMap.get_set] at hg
      split at hg
      · rename_i hk; subst hk; simp
      · rename_i hk
        have := h.sub k' id hg
        refine List.mem_append_left _ ?_
        split
        · exact mem_remove this hk
        · exact this
    · cases ha
  | setFull t env =>
    simp only [apply] at ha
    split at ha
    · split at ha
      · simp only [Option.some.injEq] at ha; subst ha
        have hc := clean_kept h.nodup h.sub env 10
        exact ⟨(clean_spec _ _ _ h.nodup).1, hc.1, upd_outside h.outside trivial, panics_append h.panics hc.2⟩
      · cases ha
    · cases ha
  | setOk t =>
    simp only [apply] at ha
    split at ha
    · split at ha
      · cases ha
      · simp only [Option.some.injEq] at ha; subst ha
        exact ⟨h.nodup, h.sub, upd_outside h.outside trivial, h.panics⟩
    · cases ha
  | del k =>
    simp only [apply] at ha
    split at ha
    · cases ha
    · simp only [Option.some.injEq] at ha; subst ha
      exact ⟨AMap.nodup_del h.nodup k, sub_del h.sub k, h.outside, h.panics⟩
  | clean env p =>
    simp only [apply] at ha
    split at ha
    · cases ha
    · simp only [Option.some.injEq] at ha; subst ha
      have hc := clean_kept h.nodup h.sub env p
      exact ⟨(clean_spec _ _ _ h.nodup).1, hc.1, h.outside, panics_append h.panics hc.2⟩
  | flush =>
    simp only [apply] at ha
    split at ha
    · cases ha
    · simp only [Option.some.injEq] at ha; subst ha
      exact ⟨AMap.nodup_nil, fun k id hg => by simp at hg, h.outside, h.panics⟩
  | setMaxitems m => simp only [apply, Option.some.injEq] at ha; subst ha; exact ⟨h.nodup, h.sub, h.outside, h.panics⟩
  | setExpire m => simp only [apply, Option.some.injEq] at ha; subst ha; exact ⟨h.nodup, h.sub, h.outside, h.panics⟩
  | setValidator m => simp only [apply, Option.some.injEq] at ha; subst ha; exact ⟨h.nodup, h.sub, h.outside, h.panics⟩
  | tear p => exact absurd rfl (h3 p)
  | loadPile t => exact absurd rfl (h1 t)
  | storePile t => exact absurd rfl (h2 t)
  | getStart t k =>
    simp only [apply] at ha
    split at ha
    · split at ha
      · simp only [Option.some.injEq] at ha; subst ha; exact ⟨h.nodup, h.sub, upd_outside h.outside trivial, h.panics⟩
      · simp only [Option.some.injEq] at ha; subst ha; exact ⟨h.nodup, h.sub, h.outside, panics_append' h.panics (by simp)⟩
    · cases ha
  | checkVal t ok =>
    simp only [apply] at ha
    split at ha
    · split at ha
      all_goals simp only [Option.some.injEq] at ha; subst ha; exact ⟨h.nodup, h.sub, upd_outside h.outside trivial, h.panics⟩
    · cases ha
  | checkExp t now =>
    simp only [apply] at ha
    split at ha
    · split at ha
      · split at ha
        all_goals simp only [Option.some.injEq] at ha; subst ha; exact ⟨h.nodup, h.sub, upd_outside h.outside trivial, h.panics⟩
      · cases ha
    · cases ha
  | writeRtime t now =>
    simp only [apply] at ha
    split at ha
    · simp only [Option.some.injEq] at ha; subst ha; exact ⟨h.nodup, h.sub, upd_outside h.outside trivial, h.panics⟩
    · cases ha
  | getDrop t =>
    simp only [apply] at ha
    split at ha
    · simp only [Option.some.injEq] at ha; subst ha
      exact ⟨AMap.nodup_del h.nodup _, sub_del h.sub _, upd_outside h.outside trivial, panics_append' h.panics (by simp)⟩
    · cases ha
  | verifyStart t env =>
    simp only [apply] at ha
    split at ha
    · simp only [Option.some.injEq] at ha; subst ha
      have hc := clean_kept h.nodup h.sub env 0
      exact ⟨(clean_spec _ _ _ h.nodup).1, hc.1, upd_outside h.outside trivial, panics_append h.panics hc.2⟩
    · cases ha
  | verifyPick t k ok =>
    simp only [apply] at ha
    split at ha
    · split at ha
      · simp only [Option.some.injEq] at ha; subst ha; exact ⟨h.nodup, h.sub, upd_outside h.outside trivial, h.panics⟩
      · simp only [Option.some.injEq] at ha; subst ha; exact h
    · cases ha
  | verifyDel t =>
    simp only [apply] at ha
    split at ha
    · simp only [Option.some.injEq] at ha; subst ha
      refine ⟨AMap.nodup_del h.nodup _, ?_, upd_outside h.outside trivial, h.panics⟩
      intro k' id hg
      dsimp only at hg
      rw [AMap.get_del] at hg
      split at hg
      · cases hg
      · exact h.sub _ _ hg
    · cases ha
  | verifyEnd t =>
    simp only [apply] at ha
    split at ha
    · simp only [Option.some.injEq] at ha; subst ha; exact ⟨h.nodup, h.sub, upd_outside h.outside trivial, h.panics⟩
    · cases ha

theorem Kept.touch {st st' : St D} (h : Kept st) (t : Nat) (as : List (Act D))
    (hr : runActs st (.loadPile t :: .storePile t :: .loadPile t :: .storePile t :: as) = some st') :
    ∃ st1, Kept st1 ∧ runActs st1 as = some st' := by
  have ho := h.outside t
  cases hpc : st.pcs t with
  | touch k id =>
    simp only [runActs, apply, hpc, upd, if_true] at hr
    cases hh : st.sh.heap[id]? with
    | none => simp only [hh] at hr; cases hr
    | some e =>
      simp only [hh] at hr
      refine ⟨_, ?_, hr⟩
      refine ⟨h.nodup, ?_, ?_, panics_append' h.panics (by simp)⟩
      · intro k' id' hg
        have := h.sub k' id' hg
        by_cases hk : k' = k
        · subst hk; simp
        · exact List.mem_append_left _ (mem_remove this hk)
      · intro j
        have := h.outside j
        by_cases hj : j = t
        · simp [hj, upd, PC.Outside]
        · simp only [upd, hj, if_false]; exact this
  | idle => simp [runActs, apply, hpc] at hr
  | setDone => simp [runActs, apply, hpc] at hr
  | loaded k id => simp [runActs, apply, hpc] at hr
  | valOk k id => simp [runActs, apply, hpc] at hr
  | good k id => simp [runActs, apply, hpc] at hr
  | doomed k id => simp [runActs, apply, hpc] at hr
  | verifying m => simp [runActs, apply, hpc] at hr
  | vdoomed k m => simp [runActs, apply, hpc] at hr
  | removing k id p => rw [hpc] at ho; exact ho.elim
  | removed k id => rw [hpc] at ho; exact ho.elim
  | adding k id p => rw [hpc] at ho; exact ho.elim

theorem Kept.run {as : List (Act D)} (hc : Calm as) {st st' : St D} (h : Kept st) (hr : runActs st as = some st') : Kept st' := by
  induction hc generalizing st with
  | nil => simp only [runActs, Option.some.injEq] at hr; subst hr; exact h
  | other a as h1 h2 h3 _ ih =>
    simp only [runActs] at hr
    split at hr
    · rename_i st1 ha; exact ih (h.other a h1 h2 h3 ha) hr
    · cases hr
  | touch t as _ ih =>
    obtain ⟨st1, h1, h2⟩ := h.touch t as hr
    exact ih h1 h2

theorem Kept.init (m e : Int) : Kept (init m e : St D) :=
  ⟨AMap.nodup_nil, fun _ _ h => by simp [CacheConc.init] at h, fun _ => trivial, fun _ h => by simp [CacheConc.init] at h⟩

end Xcore.V1.CacheConc
