import Verif.Proof.CacheFiles
import Verif.Proof.CacheConc

/-! # C111 with goroutines -/

namespace Xcore.CacheConc

open Xcore.Cache (Env)

variable {D : Type}

/-- The entry a goroutine works on after the validator accepted it. -/
def PC.seen : PC → Option (Str × Nat)
  | .valOk k id | .good k id | .touch k id => some (k, id)
  | _ => none

theorem PC.seen_holds {p : PC} {r : Str × Nat} (h : p.seen = some r) : p.holds = some r := by
  cases p <;> simp_all [PC.seen, PC.holds]

/-- What one step can do. -/
structure Facts (st st' : St D) (a : Act D) : Prop where
  heap : HeapExt st.sh.heap st'.sh.heap
  items : ∀ k id, st'.sh.items.get k = some id → st.sh.items.get k = some id ∨
    ∃ env d x, a = .set env k d ∧ st'.sh.heap[id]? = some x ∧ x.data = d ∧ x.ctime = env.clk 0
  holds : ∀ t k id, (st'.pcs t).holds = some (k, id) → (st.pcs t).holds = some (k, id) ∨ (a = .getStart t k ∧ st.sh.items.get k = some id)
  seen : ∀ t k id, (st'.pcs t).seen = some (k, id) → (st.pcs t).seen = some (k, id) ∨
    ∃ ok, a = .checkVal t ok ∧ st.pcs t = .ttlOk k id ∧ (st.sh.hasValidator = true → ok = true)
  begins : ∀ t k, a = .getStart t k → st.pcs t = .idle
  validator : st'.sh.hasValidator = st.sh.hasValidator ∨ a = .setValidator st'.sh.hasValidator

theorem mClean_validator (s : Shared D) (env : Env) (p : Int) : (mClean s env p).1.hasValidator = s.hasValidator := by
  unfold mClean; dsimp only; split <;> rfl

theorem facts {st st' : St D} (h : Inv st) (a : Act D) (ha : apply st a = some st') : Facts st st' a := by
  refine ⟨?_, ?_, ?_, ?_, ?_, ?_⟩
  · cases a <;> simp only [apply] at ha <;> (repeat' split at ha) <;> first
      | (cases ha; done)
      | (simp only [Option.some.injEq] at ha; subst ha; exact HeapExt.refl _)
      | (simp only [Option.some.injEq] at ha; subst ha; exact HeapExt.modify _ _ _ (fun _ => ⟨rfl, rfl⟩))
      | (simp only [Option.some.injEq] at ha; subst ha; dsimp only; rw [mClean_heap]; exact HeapExt.refl _)
      | (simp only [Option.some.injEq] at ha; subst ha; unfold set; dsimp only; split
         · rw [mClean_heap]; exact HeapExt.append _ _
         · exact HeapExt.append _ _)
  · intro k id hk
    cases a with
    | set env k' d =>
      simp only [apply, Option.some.injEq] at ha
      subst ha
      have hheap : (CacheConc.set st.sh env k' d).1.heap = st.sh.heap ++ [{ ctime := env.clk 0, rtime := env.clk 1, ttl := 0, data := d }] := by
        unfold CacheConc.set; dsimp only; split
        · rw [mClean_heap]; rfl
        · rfl
      have h1 : (setRaw st.sh env k' d).items.get k = some id := by
        dsimp only at hk
        unfold CacheConc.set at hk
        dsimp only at hk
        split at hk
        · exact mClean_sub (h.tracked.setRaw env k' d).nodup env 10 k id hk
        · exact hk
      simp only [setRaw, AMap.get_set] at h1
      split at h1
      · rename_i hkk; subst hkk
        right
        simp only [Option.some.injEq] at h1
        subst h1
        exact ⟨env, d, { ctime := env.clk 0, rtime := env.clk 1, ttl := 0, data := d }, rfl, by dsimp only; rw [hheap]; simp, rfl, rfl⟩
      · exact Or.inl h1
    | _ =>
      left
      simp only [apply] at ha
      (repeat' split at ha) <;> first
        | (cases ha; done)
        | (simp only [Option.some.injEq] at ha; subst ha; exact hk)
        | (simp only [Option.some.injEq] at ha; subst ha; exact mClean_sub h.tracked.nodup _ _ k id hk)
        | (simp only [Option.some.injEq] at ha; subst ha; simp only [del, AMap.get_del] at hk; split at hk; (cases hk); exact hk)
        | (simp only [Option.some.injEq] at ha; subst ha; simp at hk)
  · intro t k id hk
    cases a <;> simp only [apply] at ha <;> (repeat' split at ha) <;> first
      | (cases ha; done)
      | (simp only [Option.some.injEq] at ha; subst ha; exact Or.inl hk)
      | (simp only [Option.some.injEq] at ha; subst ha; simp only [upd] at hk; split at hk
         · subst t; simp_all [PC.holds]
         · exact Or.inl hk)
  · intro t k id hk
    cases a <;> simp only [apply] at ha <;> (repeat' split at ha) <;> first
      | (cases ha; done)
      | (simp only [Option.some.injEq] at ha; subst ha; exact Or.inl hk)
      | (simp only [Option.some.injEq] at ha; subst ha; simp only [upd] at hk; split at hk
         · subst t; simp_all [PC.seen]
         · exact Or.inl hk)
  · rintro t k rfl
    simp only [apply] at ha
    split at ha
    · assumption
    · cases ha
  · cases a <;> simp only [apply] at ha <;> (repeat' split at ha) <;> first
      | (cases ha; done)
      | (simp only [Option.some.injEq] at ha; subst ha; exact Or.inl rfl)
      | (simp only [Option.some.injEq] at ha; subst ha; exact Or.inr rfl)
      | (simp only [Option.some.injEq] at ha; subst ha; exact Or.inl (mClean_validator _ _ _))
      | (simp only [Option.some.injEq] at ha; subst ha; left; unfold set; dsimp only; split
         · rw [mClean_validator]; rfl
         · rfl)

/-- Only the locked end of a `Get` makes a `Get` return something. -/
theorem returns {st st' : St D} {a : Act D} {t : Nat} {k : Str} {v : D} {b : Bool} (ha : apply st a = some st')
    (hr : st'.obs = st.obs ++ [.returned t k (some v) b]) : ∃ id x, st.pcs t = .touch k id ∧ st.sh.heap[id]? = some x ∧ x.data = v := by
  cases a <;> simp only [apply] at ha <;> (repeat' split at ha) <;> first
    | (cases ha; done)
    | (simp only [Option.some.injEq] at ha; subst ha; simp at hr; done)
    | (simp only [Option.some.injEq] at ha; subst ha; dsimp only at hr; split at hr <;> simp at hr; done)
    | (simp only [Option.some.injEq] at ha; subst ha; simp at hr; obtain ⟨rfl, rfl, rfl, rfl⟩ := hr; exact ⟨_, _, by assumption, by assumption, rfl⟩)

end Xcore.CacheConc

namespace Xcore.CacheFiles

open Xcore.CacheConc

variable {D : Type}

/-- The entry was stored under `k` by one of the events, and a file that is not newer has its data. -/
def Sound (now : Disk D) (evs : List (Event (Act D) D)) (k : Str) (x : Cache.Entry D) : Prop :=
  (∃ pre env post, evs = pre ++ .call (.set env k x.data) :: post ∧ env.clk 0 = x.ctime) ∧
    ∀ f, now k = some f → f.mtime ≤ x.ctime → f.content = x.data

/-- Goroutine `t` is in a `Get` of `k`. -/
def Within (evs : List (Event (Act D) D)) (t : Nat) (k : Str) : Prop :=
  ∃ before during, evs = before ++ .call (.getStart t k) :: during ∧ ∀ k', .call (.getStart t k') ∉ during

theorem Within.more {evs : List (Event (Act D) D)} {t : Nat} {k : Str} (h : Within evs t k) {x : Event (Act D) D} (hx : ∀ k', x ≠ .call (.getStart t k')) :
    Within (evs ++ [x]) t k := by
  obtain ⟨a, b, h1, h2⟩ := h
  refine ⟨a, b ++ [x], by rw [h1]; simp, fun k' hk => ?_⟩
  rcases List.mem_append.1 hk with hk | hk
  · exact h2 k' hk
  · exact hx k' (List.mem_singleton.1 hk).symm

theorem SeenDuring.more {disk : Disk D} {evs : List (Event (Act D) D)} {t : Nat} {k : Str} {v : D} (h : SeenDuring disk evs t k v) {x : Event (Act D) D}
    (hx : ∀ k', x ≠ .call (.getStart t k')) : SeenDuring disk (evs ++ [x]) t k v := by
  obtain ⟨a, b, c, m, h1, h2, h3⟩ := h
  refine ⟨a, b, c ++ [x], m, by rw [h1]; simp, fun k' hk => ?_, h3⟩
  rw [← List.append_assoc] at hk
  rcases List.mem_append.1 hk with hk | hk
  · exact h2 k' hk
  · exact hx k' (List.mem_singleton.1 hk).symm

/-- The invariant. -/
structure Fresh (disk now : Disk D) (evs : List (Event (Act D) D)) (st : St D) : Prop where
  inv : Inv st
  files : diskAfter disk evs = now
  guarded : st.sh.hasValidator = true
  items : ∀ k (id : Nat), st.sh.items.get k = some id → ∃ x, st.sh.heap[id]? = some x ∧ Sound now evs k x
  holds : ∀ t k (id : Nat), (st.pcs t).holds = some (k, id) → Within evs t k ∧ ∃ x, st.sh.heap[id]? = some x ∧ Sound now evs k x
  seen : ∀ t k id, (st.pcs t).seen = some (k, id) → ∃ x, st.sh.heap[id]? = some x ∧ SeenDuring disk evs t k x.data

theorem Sound.call {now : Disk D} {evs : List (Event (Act D) D)} {k : Str} {x x' : Cache.Entry D} (h : Sound now evs k x) (e : Event (Act D) D)
    (hd : x'.data = x.data) (hc : x'.ctime = x.ctime) : Sound now (evs ++ [e]) k x' := by
  obtain ⟨⟨pre, env, post, h1, h2⟩, h3⟩ := h
  exact ⟨⟨pre, env, post ++ [e], by rw [h1, hd]; simp, by rw [h2, hc]⟩, fun f hf hm => by rw [hd]; exact h3 f hf (by omega)⟩

theorem fresh_call {disk now : Disk D} {evs : List (Event (Act D) D)} {st st' : St D} {a : Act D} (h : Fresh disk now evs st)
    (hv : ∀ t ok k id x, a = .checkVal t ok → st.pcs t = .ttlOk k id → st.sh.heap[id]? = some x → ok = fileValidator now k x.ctime)
    (ha : apply st a = some st') (hl : ∀ env k d, a = .set env k d → ∃ m, now k = some ⟨d, m⟩) (hg : a ≠ .setValidator false) :
    Fresh disk now (evs ++ [.call a]) st' := by
  have hf := facts h.inv a ha
  have old : ∀ (k : Str) (id : Nat), (∃ x, st.sh.heap[id]? = some x ∧ Sound now evs k x) → ∃ x, st'.sh.heap[id]? = some x ∧ Sound now (evs ++ [.call a]) k x := by
    rintro k id ⟨x, hx, hs⟩
    obtain ⟨x', h1, h2, h3⟩ := hf.heap id x hx
    exact ⟨x', h1, hs.call _ h2 h3⟩
  have busy : ∀ t k id, (st.pcs t).holds = some (k, id) → ∀ k', (Event.call a : Event (Act D) D) ≠ .call (.getStart t k') := by
    intro t k id hh k' e
    cases e
    rw [hf.begins t k' rfl] at hh
    cases hh
  refine ⟨h.inv.apply a ha, ?_, ?_, ?_, ?_, ?_⟩
  · rw [diskAfter_append, h.files]; rfl
  · rcases hf.validator with e | e
    · rw [e]; exact h.guarded
    · cases hb : st'.sh.hasValidator with
      | true => rfl
      | false => rw [hb] at e; exact absurd e hg
  · intro k id hk
    rcases hf.items k id hk with h1 | ⟨env, d, x, rfl, h1, h2, h3⟩
    · exact old k id (h.items k id h1)
    · refine ⟨x, h1, ⟨evs, env, [], by rw [h2], h3.symm⟩, ?_⟩
      intro f hf' _
      obtain ⟨m, hm⟩ := hl env k d rfl
      rw [hm] at hf'; cases hf'; exact h2.symm
  · intro t k id hk
    rcases hf.holds t k id hk with h1 | ⟨rfl, h1⟩
    · exact ⟨(h.holds t k id h1).1.more (busy t k id h1), old k id (h.holds t k id h1).2⟩
    · exact ⟨⟨evs, [], rfl, by simp⟩, old k id (h.items k id h1)⟩
  · intro t k id hk
    rcases hf.seen t k id hk with h1 | ⟨ok, rfl, h1, h2⟩
    · obtain ⟨x, hx, hs⟩ := h.seen t k id h1
      obtain ⟨x', e1, e2, _⟩ := hf.heap id x hx
      exact ⟨x', e1, by rw [e2]; exact hs.more (busy t k id (PC.seen_holds h1))⟩
    · have hh : (st.pcs t).holds = some (k, id) := by rw [h1]; rfl
      obtain ⟨⟨a, b, hw1, hw2⟩, x, hx, hs⟩ := h.holds t k id hh
      obtain ⟨x', e1, e2, _⟩ := hf.heap id x hx
      have hval := hv t ok k id x rfl h1 hx
      rw [h2 h.guarded] at hval
      obtain ⟨f, hfk, hm⟩ := valid_iff.1 hval.symm
      refine ⟨x', e1, ?_⟩
      have : SeenDuring disk evs t k x'.data :=
        ⟨a, b, [], f.mtime, by rw [hw1]; simp, by simpa using hw2, by rw [← hw1, h.files, hfk, e2, ← hs.2 f hfk hm]⟩
      exact this.more (busy t k id hh)

theorem fresh_file {disk now : Disk D} {evs : List (Event (Act D) D)} {st : St D} (h : Fresh disk now evs st) (e : Event (Act D) D)
    (he : ∀ a, e ≠ .call a) (hs : ∀ (k : Str) (x : Cache.Entry D), Sound now evs k x → Sound (e.disk now) (evs ++ [e]) k x) : Fresh disk (e.disk now) (evs ++ [e]) st := by
  refine ⟨h.inv, by rw [diskAfter_append, h.files]; rfl, h.guarded, ?_, ?_, ?_⟩
  · intro k id hk
    obtain ⟨x, h1, h2⟩ := h.items k id hk
    exact ⟨x, h1, hs k x h2⟩
  · intro t k id hk
    obtain ⟨h0, x, h1, h2⟩ := h.holds t k id hk
    exact ⟨h0.more (fun _ => he _), x, h1, hs k x h2⟩
  · intro t k id hk
    obtain ⟨x, h1, h2⟩ := h.seen t k id hk
    exact ⟨x, h1, h2.more (fun _ => he _)⟩

theorem LoadsC.less {disk : Disk D} {evs : List (Event (Act D) D)} {x : Event (Act D) D} (h : LoadsC disk (evs ++ [x])) : LoadsC disk evs :=
  fun pre env k d post e => h pre env k d (post ++ [x]) (by rw [e]; simp)

theorem TimelyC.less {evs : List (Event (Act D) D)} {x : Event (Act D) D} (h : TimelyC (evs ++ [x])) : TimelyC evs :=
  fun pre env k d mid d' m post e => h pre env k d mid d' m (post ++ [x]) (by rw [e]; simp)

theorem fresh {m e : Int} {disk now : Disk D} {evs : List (Event (Act D) D)} {st : St D} (hr : Goes m e disk evs now st) (hl : LoadsC disk evs)
    (ht : TimelyC evs) (hg : GuardedC evs) : Fresh disk now evs st := by
  induction hr with
  | start hs =>
    have hi := (Inv.init m e).apply _ hs
    simp only [apply, Option.some.injEq] at hs
    subst hs
    exact ⟨hi, rfl, rfl, fun k id h => by simp [init] at h, fun t k id h => by simp [init, PC.holds] at h, fun t k id h => by simp [init, PC.seen] at h⟩
  | step hr hv ha ih =>
    have h := ih (LoadsC.less hl) (TimelyC.less ht) (fun h => hg (by simp [h]))
    refine fresh_call h hv ha ?_ ?_
    · rintro env k d rfl
      rw [← h.files]
      exact hl _ env k d [] rfl
    · rintro rfl; exact hg (by simp)
  | write p d mt hr ih =>
    have h := ih (LoadsC.less hl) (TimelyC.less ht) (fun h => hg (by simp [h]))
    refine fresh_file h (.write p d mt) (by simp) ?_
    rintro k x ⟨⟨pre, env, post, h1, h2⟩, h3⟩
    refine ⟨⟨pre, env, post ++ [.write p d mt], by rw [h1]; simp, h2⟩, fun f hf hm => ?_⟩
    simp only [Event.disk, put] at hf
    split at hf
    · subst k; cases hf
      have := ht pre env p x.data post d mt [] (by rw [h1]; simp)
      dsimp only at hm
      omega
    · exact h3 f hf hm
  | remove p hr ih =>
    have h := ih (LoadsC.less hl) (TimelyC.less ht) (fun h => hg (by simp [h]))
    refine fresh_file h (.remove p) (by simp) ?_
    rintro k x ⟨⟨pre, env, post, h1, h2⟩, h3⟩
    refine ⟨⟨pre, env, post ++ [.remove p], by rw [h1]; simp, h2⟩, fun f hf hm => ?_⟩
    simp only [Event.disk, put] at hf
    split at hf
    · cases hf
    · exact h3 f hf hm

end Xcore.CacheFiles
