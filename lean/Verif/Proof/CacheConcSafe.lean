import Verif.Spec.CacheConc
import Verif.Proof.CacheConc

/-! # C13: an entry nobody else works on -/

namespace Xcore.CacheConc

open Cache

variable {D : Type}

theorem length_setRaw (st : St D) (env : Env) (k : Str) (d : D) : (setRaw st.sh env k d).items.length = countWith st k := by
  unfold countWith
  simp only [setRaw, AMap.length_set]
  by_cases h : k ∈ st.sh.items.keys
  · obtain ⟨v, hv⟩ := (AMap.mem_keys_iff _ _).1 h
    rw [if_pos h, hv]; rfl
  · cases hg : st.sh.items.get k with
    | none => rw [if_neg h]; rfl
    | some v => exact absurd ((AMap.mem_keys_iff _ _).2 ⟨v, hg⟩) h

/-- `k` holds entry `id` with data `d` and nobody works on an older entry of `k`. -/
structure Safe (k : Str) (id : Nat) (d : D) (st : St D) : Prop where
  present : st.sh.items.get k = some id
  data : ∃ e, st.sh.heap[id]? = some e ∧ e.data = d
  ptr : ∀ t id', (st.pcs t).holds = some (k, id') → id' = id
  ndoom : ∀ t id', st.pcs t ≠ .doomed k id'
  nvdoom : ∀ t m, st.pcs t ≠ .vdoomed k m

theorem upd_same (f : Nat → PC) (t : Nat) (p : PC) : upd f t p t = p := by simp [upd]

theorem upd_cases {f : Nat → PC} {t : Nat} {p : PC} {P : PC → Prop} (hp : P p) (hf : ∀ t, P (f t)) (t' : Nat) : P (upd f t p t') := by
  unfold upd; split
  · exact hp
  · exact hf t'

theorem Safe.pcs_step {k : Str} {id : Nat} {d : D} {st st' : St D} (h : Safe k id d st) (t : Nat) (p : PC)
    (hpcs : st'.pcs = upd st.pcs t p)
    (hitems : st'.sh.items.get k = st.sh.items.get k) (hheap : HeapExt st.sh.heap st'.sh.heap)
    (hp1 : ∀ id', p.holds = some (k, id') → id' = id) (hp2 : ∀ id', p ≠ .doomed k id') (hp3 : ∀ m, p ≠ .vdoomed k m) : Safe k id d st' := by
  refine ⟨by rw [hitems]; exact h.present, ?_, ?_, ?_, ?_⟩
  · obtain ⟨e, h1, h2⟩ := h.data
    obtain ⟨e', h3, h4, _⟩ := hheap id e h1
    exact ⟨e', h3, by rw [h4, h2]⟩
  · rw [hpcs]; exact fun t' => upd_cases (P := fun p => ∀ id', p.holds = some (k, id') → id' = id) hp1 h.ptr t'
  · rw [hpcs]; exact fun t' => upd_cases (P := fun p => ∀ id', p ≠ .doomed k id') hp2 h.ndoom t'
  · rw [hpcs]; exact fun t' => upd_cases (P := fun p => ∀ m, p ≠ .vdoomed k m) hp3 h.nvdoom t'

theorem Safe.sh_step {k : Str} {id : Nat} {d : D} {st st' : St D} (h : Safe k id d st) (hpcs : st'.pcs = st.pcs)
    (hitems : st'.sh.items.get k = st.sh.items.get k) (hheap : HeapExt st.sh.heap st'.sh.heap) : Safe k id d st' := by
  refine ⟨by rw [hitems]; exact h.present, ?_, by rw [hpcs]; exact h.ptr, by rw [hpcs]; exact h.ndoom, by rw [hpcs]; exact h.nvdoom⟩
  obtain ⟨e, h1, h2⟩ := h.data
  obtain ⟨e', h3, h4, _⟩ := hheap id e h1
  exact ⟨e', h3, by rw [h4, h2]⟩

/-- What a Get of `k` may report in the meantime. -/
def Fine (k : Str) (d : D) (o : Obs D) : Prop := ∀ t r b, o = .returned t k r b → r = some d ∧ b = false

theorem Safe.step {k : Str} {id : Nat} {d : D} {st st' : St D} (h : Safe k id d st) (a : Act D) (hq : Quiet k st a)
    (ha : apply st a = some st') :
    ∃ new, st'.obs = st.obs ++ new ∧
      ((∃ t, .condemned t k id ∈ new) ∨ (Safe k id d st' ∧ ∀ o ∈ new, Fine k d o)) := by
  cases a with
  | set env k' d' =>
    obtain ⟨h1, h2⟩ := hq
    simp only [apply, Option.some.injEq] at ha
    have hset : CacheConc.set st.sh env k' d' = (setRaw st.sh env k' d', true) := by
      unfold CacheConc.set; rw [← length_setRaw st env k' d'] at h2; exact if_neg h2
    rw [hset] at ha
    subst ha
    refine ⟨_, rfl, Or.inr ⟨?_, by simp [Fine]⟩⟩
    refine h.sh_step rfl ?_ ?_
    · simp only [setRaw, AMap.get_set]; rw [if_neg (fun e => h1 e.symm)]
    · simp only [setRaw]; exact HeapExt.append _ _
  | setTTL k' ttl =>
    simp only [apply] at ha
    split at ha <;> (simp only [Option.some.injEq] at ha; subst ha)
    · refine ⟨[], by simp, Or.inr ⟨?_, by simp⟩⟩
      exact h.sh_step rfl rfl (HeapExt.modify _ _ _ (fun _ => ⟨rfl, rfl⟩))
    · exact ⟨[], by simp, Or.inr ⟨h, by simp⟩⟩
  | del k' =>
    have h1 : k' ≠ k := hq
    simp only [apply, Option.some.injEq] at ha
    subst ha
    refine ⟨[], by simp, Or.inr ⟨h.sh_step rfl ?_ (HeapExt.refl _), by simp⟩⟩
    simp only [del, AMap.get_del]; rw [if_neg (fun e => h1 e.symm)]
  | clean env p => exact hq.elim
  | flush => exact hq.elim
  | setMaxitems m =>
    simp only [apply, Option.some.injEq] at ha; subst ha
    exact ⟨[], by simp, Or.inr ⟨h.sh_step rfl rfl (HeapExt.refl _), by simp⟩⟩
  | setExpire m =>
    simp only [apply, Option.some.injEq] at ha; subst ha
    exact ⟨[], by simp, Or.inr ⟨h.sh_step rfl rfl (HeapExt.refl _), by simp⟩⟩
  | setValidator m =>
    simp only [apply, Option.some.injEq] at ha; subst ha
    exact ⟨[], by simp, Or.inr ⟨h.sh_step rfl rfl (HeapExt.refl _), by simp⟩⟩
  | getStart t k' =>
    simp only [apply] at ha
    split at ha
    · split at ha <;> (rename_i hg; simp only [Option.some.injEq] at ha; subst ha)
      · refine ⟨[], by simp, Or.inr ⟨h.pcs_step t _ rfl rfl (HeapExt.refl _) ?_ (by simp) (by simp), by simp⟩⟩
        intro id' hh
        simp only [PC.holds, Option.some.injEq, Prod.mk.injEq] at hh
        obtain ⟨rfl, rfl⟩ := hh
        rw [h.present] at hg
        exact (Option.some.inj hg).symm
      · refine ⟨_, rfl, Or.inr ⟨h.sh_step rfl rfl (HeapExt.refl _), ?_⟩⟩
        intro o ho t' r b hor
        simp only [List.mem_singleton] at ho
        rw [ho] at hor
        simp only [Obs.returned.injEq] at hor
        rw [hor.2.1, h.present] at hg
        cases hg
    · cases ha
  | checkTTL t now =>
    simp only [apply] at ha
    split at ha
    · rename_i k' id' hpc
      split at ha
      · split at ha <;> (simp only [Option.some.injEq] at ha; subst ha)
        · refine ⟨_, rfl, ?_⟩
          by_cases hk : k' = k
          · subst hk
            left
            refine ⟨t, ?_⟩
            rw [h.ptr t id' (by rw [hpc]; rfl)]; simp
          · right
            exact ⟨h.pcs_step t _ rfl rfl (HeapExt.refl _) (by simp [PC.holds, hk]) (by simp [hk]) (by simp), by simp [Fine]⟩
        · refine ⟨[], by simp, Or.inr ⟨h.pcs_step t _ rfl rfl (HeapExt.refl _) ?_ (by simp) (by simp), by simp⟩⟩
          intro id2 hh; exact h.ptr t id2 (by rw [hpc]; exact hh)
      · cases ha
    · cases ha
  | checkVal t ok =>
    simp only [apply] at ha
    split at ha
    · rename_i k' id' hpc
      split at ha <;> (simp only [Option.some.injEq] at ha; subst ha)
      · refine ⟨_, rfl, ?_⟩
        by_cases hk : k' = k
        · subst hk
          left
          refine ⟨t, ?_⟩
          rw [h.ptr t id' (by rw [hpc]; rfl)]; simp
        · right
          exact ⟨h.pcs_step t _ rfl rfl (HeapExt.refl _) (by simp [PC.holds, hk]) (by simp [hk]) (by simp), by simp [Fine]⟩
      · refine ⟨[], by simp, Or.inr ⟨h.pcs_step t _ rfl rfl (HeapExt.refl _) ?_ (by simp) (by simp), by simp⟩⟩
        intro id2 hh; exact h.ptr t id2 (by rw [hpc]; exact hh)
    · cases ha
  | checkExp t now =>
    simp only [apply] at ha
    split at ha
    · rename_i k' id' hpc
      split at ha
      · split at ha <;> (simp only [Option.some.injEq] at ha; subst ha)
        · refine ⟨_, rfl, ?_⟩
          by_cases hk : k' = k
          · subst hk
            left
            refine ⟨t, ?_⟩
            rw [h.ptr t id' (by rw [hpc]; rfl)]; simp
          · right
            exact ⟨h.pcs_step t _ rfl rfl (HeapExt.refl _) (by simp [PC.holds, hk]) (by simp [hk]) (by simp), by simp [Fine]⟩
        · refine ⟨[], by simp, Or.inr ⟨h.pcs_step t _ rfl rfl (HeapExt.refl _) ?_ (by simp) (by simp), by simp⟩⟩
          intro id2 hh; exact h.ptr t id2 (by rw [hpc]; exact hh)
      · cases ha
    · cases ha
  | writeRtime t now =>
    simp only [apply] at ha
    split at ha
    · rename_i k' id' hpc
      simp only [Option.some.injEq] at ha; subst ha
      refine ⟨[], by simp, Or.inr ⟨h.pcs_step t _ rfl rfl (HeapExt.modify _ _ _ (fun _ => ⟨rfl, rfl⟩)) ?_ (by simp) (by simp), by simp⟩⟩
      intro id2 hh; exact h.ptr t id2 (by rw [hpc]; exact hh)
    · cases ha
  | getEnd t =>
    simp only [apply] at ha
    split at ha
    · rename_i k' id' hpc
      split at ha
      · rename_i e he
        simp only [Option.some.injEq] at ha; subst ha
        refine ⟨_, rfl, Or.inr ⟨h.pcs_step t .idle rfl rfl (HeapExt.refl _) (by simp [PC.holds]) (by simp) (by simp), ?_⟩⟩
        intro o ho t' r b hor
        simp only [List.mem_singleton] at ho
        rw [ho] at hor
        simp only [Obs.returned.injEq] at hor
        obtain ⟨_, rfl, rfl, rfl⟩ := hor
        have := h.ptr t id' (by rw [hpc]; rfl)
        subst this
        obtain ⟨e', h1, h2⟩ := h.data
        rw [he] at h1; cases h1
        exact ⟨by rw [h2], rfl⟩
      · cases ha
    · cases ha
  | getDrop t =>
    simp only [apply] at ha
    split at ha
    · rename_i k' id' hpc
      have hk : k' ≠ k := fun e => h.ndoom t id' (by rw [hpc, e])
      simp only [Option.some.injEq] at ha; subst ha
      refine ⟨_, rfl, Or.inr ⟨h.pcs_step t .idle rfl ?_ (HeapExt.refl _) (by simp [PC.holds]) (by simp) (by simp), by simp [Fine, hk]⟩⟩
      simp only [del, AMap.get_del]; rw [if_neg (fun e => hk e.symm)]
    · cases ha
  | verifyStart t env => exact hq.elim
  | verifyPick t k' ok =>
    have hk : k' ≠ k := hq
    simp only [apply] at ha
    split at ha
    · split at ha
      · split at ha <;> (simp only [Option.some.injEq] at ha; subst ha)
        · exact ⟨[], by simp, Or.inr ⟨h.pcs_step t _ rfl rfl (HeapExt.refl _) (by simp [PC.holds]) (by simp) (by simp [hk]), by simp⟩⟩
        · exact ⟨[], by simp, Or.inr ⟨h, by simp⟩⟩
      · cases ha
    · cases ha
  | verifyDel t =>
    simp only [apply] at ha
    split at ha
    · rename_i k' m' hpc
      have hk : k' ≠ k := fun e => h.nvdoom t m' (by rw [hpc, e])
      simp only [Option.some.injEq] at ha; subst ha
      refine ⟨[], by simp, Or.inr ⟨h.pcs_step t (.verifying m') rfl ?_ (HeapExt.refl _) (by simp [PC.holds]) (by simp) (by simp), by simp⟩⟩
      simp only [del, AMap.get_del]; rw [if_neg (fun e => hk e.symm)]
    · cases ha
  | verifyEnd t =>
    simp only [apply] at ha
    split at ha
    · simp only [Option.some.injEq] at ha; subst ha
      exact ⟨[], by simp, Or.inr ⟨h.pcs_step t .idle rfl rfl (HeapExt.refl _) (by simp [PC.holds]) (by simp) (by simp), by simp⟩⟩
    · cases ha

theorem obs_grow {k : Str} {st st' : St D} {as : List (Act D)} (hr : QuietRun k st as st') :
    Inv st → ∃ new, st'.obs = st.obs ++ new := by
  induction hr with
  | nil => intro _; exact ⟨[], by simp⟩
  | cons hq ha _ ih =>
    intro hi
    obtain ⟨n1, e1, _⟩ := apply_obs hi _ ha
    obtain ⟨n2, e2⟩ := ih (hi.apply _ ha)
    exact ⟨n1 ++ n2, by rw [e2, e1, List.append_assoc]⟩

theorem Safe.run {k : Str} {id : Nat} {d : D} {st st' : St D} {as : List (Act D)} (hr : QuietRun k st as st') :
    Inv st → Safe k id d st →
    ∃ new, st'.obs = st.obs ++ new ∧
      ((∃ t, .condemned t k id ∈ new) ∨ (Safe k id d st' ∧ ∀ o ∈ new, Fine k d o)) := by
  induction hr with
  | nil => intro _ hs; exact ⟨[], by simp, Or.inr ⟨hs, by simp⟩⟩
  | cons hq ha hrest ih =>
    intro hi hs
    obtain ⟨n1, e1, h1⟩ := hs.step _ hq ha
    rcases h1 with ⟨t, ht⟩ | ⟨hs', hf⟩
    · obtain ⟨n2, e2⟩ := obs_grow hrest (hi.apply _ ha)
      exact ⟨n1 ++ n2, by rw [e2, e1, List.append_assoc], Or.inl ⟨t, by simp [ht]⟩⟩
    · obtain ⟨n2, e2, h2⟩ := ih (hi.apply _ ha) hs'
      refine ⟨n1 ++ n2, by rw [e2, e1, List.append_assoc], ?_⟩
      rcases h2 with ⟨t, ht⟩ | ⟨hs2, hf2⟩
      · exact Or.inl ⟨t, by simp [ht]⟩
      · refine Or.inr ⟨hs2, ?_⟩
        intro o ho
        rcases List.mem_append.1 ho with h | h
        · exact hf o h
        · exact hf2 o h

/-! ### The maps that a Verify ranges over -/

theorem runActs_split {as bs : List (Act D)} : ∀ {st st' : St D}, runActs st (as ++ bs) = some st' →
    ∃ st1, runActs st as = some st1 ∧ runActs st1 bs = some st' := by
  induction as with
  | nil => intro st st' h; exact ⟨st, rfl, h⟩
  | cons a as ih =>
    intro st st' h
    simp only [List.cons_append, runActs] at h ⊢
    cases ha : apply st a with
    | none => rw [ha] at h; cases h
    | some s => rw [ha] at h; exact ih h

theorem runActs_append_of {as bs : List (Act D)} : ∀ {st st1 st' : St D}, runActs st as = some st1 → runActs st1 bs = some st' →
    runActs st (as ++ bs) = some st' := by
  induction as with
  | nil => intro st st1 st' h h'; simp only [runActs, Option.some.injEq] at h; subst h; exact h'
  | cons a as ih =>
    intro st st1 st' h h'
    simp only [List.cons_append, runActs] at h ⊢
    cases ha : apply st a with
    | none => rw [ha] at h; cases h
    | some s => rw [ha] at h; exact ih h h'

theorem runActs_cons' {a : Act D} {as : List (Act D)} {st st' : St D} (h : runActs st (a :: as) = some st') :
    ∃ s, apply st a = some s ∧ runActs s as = some st' := by
  simp only [runActs] at h
  cases ha : apply st a with
  | none => rw [ha] at h; cases h
  | some s => rw [ha] at h; exact ⟨s, rfl, h⟩

theorem apply_left {st st' : St D} (a : Act D) (ha : apply st a = some st') :
    st'.left = st.left ∨ st'.left = st.left ++ [st.sh.items] := by
  cases a <;> simp only [apply] at ha
  case flush => simp only [Option.some.injEq] at ha; subst ha; exact Or.inr rfl
  all_goals
    left
    repeat' split at ha
    all_goals first
      | (cases ha; done)
      | (simp only [Option.some.injEq] at ha; subst ha; rfl)

theorem apply_verify_pc {st st' : St D} {t n : Nat} (a : Act D) (ha : apply st a = some st') (hne : a ≠ .verifyEnd t)
    (h : st.pcs t = .verifying n ∨ ∃ k, st.pcs t = .vdoomed k n) : st'.pcs t = .verifying n ∨ ∃ k, st'.pcs t = .vdoomed k n := by
  have key : ∀ (u : Nat) (p : PC), (u = t → p = .verifying n ∨ ∃ k, p = .vdoomed k n) →
      upd st.pcs u p t = .verifying n ∨ ∃ k, upd st.pcs u p t = .vdoomed k n := by
    intro u p hp
    by_cases hu : u = t
    · subst hu; simpa [upd] using hp rfl
    · simpa [upd, Ne.symm hu] using h
  cases a <;> simp only [apply] at ha
  all_goals
    repeat' split at ha
    all_goals first
      | (cases ha; done)
      | (simp only [Option.some.injEq] at ha; subst ha; exact h)
      | (simp only [Option.some.injEq] at ha; subst ha; apply key; intro hu; subst hu; simp_all)

theorem verify_pc {t n : Nat} (as : List (Act D)) : ∀ {st st' : St D}, (st.pcs t = .verifying n ∨ ∃ k, st.pcs t = .vdoomed k n) →
    Act.verifyEnd t ∉ as → runActs st as = some st' → st'.pcs t = .verifying n ∨ ∃ k, st'.pcs t = .vdoomed k n := by
  induction as with
  | nil => intro st st' h _ hr; simp only [runActs, Option.some.injEq] at hr; subst hr; exact h
  | cons a as ih =>
    intro st st' h hn hr
    obtain ⟨s, ha, hr⟩ := runActs_cons' hr
    simp only [List.mem_cons, not_or] at hn
    exact ih (apply_verify_pc a ha (fun he => hn.1 he.symm) h) hn.2 hr

theorem left_prefix (as : List (Act D)) : ∀ {st st' : St D}, runActs st as = some st' → st.left <+: st'.left := by
  induction as with
  | nil => intro st st' hr; simp only [runActs, Option.some.injEq] at hr; subst hr; exact List.prefix_refl _
  | cons a as ih =>
    intro st st' hr
    obtain ⟨s, ha, hr⟩ := runActs_cons' hr
    refine List.IsPrefix.trans ?_ (ih hr)
    rcases apply_left a ha with h | h <;> rw [h]
    · exact List.prefix_refl _
    · exact List.prefix_append ..

theorem ranged_before (as : List (Act D)) (k : Str) : ∀ {st st' : St D}, runActs st as = some st' → ranged st' st.left.length k = true →
    ∃ first rest st1, as = first ++ rest ∧ runActs st first = some st1 ∧ (st1.sh.items.get k).isSome = true := by
  induction as with
  | nil =>
    intro st st' hr h
    simp only [runActs, Option.some.injEq] at hr; subst hr
    simp only [ranged, List.drop_length, List.any_nil, Bool.or_false] at h
    exact ⟨[], [], st, rfl, rfl, h⟩
  | cons a as ih =>
    intro st st' hr h
    obtain ⟨s, ha, hr⟩ := runActs_cons' hr
    by_cases hk : (st.sh.items.get k).isSome = true
    · exact ⟨[], a :: as, st, rfl, rfl, hk⟩
    have hs : ranged st' s.left.length k = true := by
      rcases apply_left a ha with he | he
      · rw [he]; exact h
      · obtain ⟨more, hm⟩ := left_prefix as hr
        rw [he] at hm ⊢
        simp only [ranged, ← hm] at h ⊢
        rw [List.append_assoc, List.drop_left, List.singleton_append, List.any_cons] at h
        rw [List.drop_left]
        simpa [hk] using h
    obtain ⟨first, rest, st1, h1, h2, h3⟩ := ih hr hs
    exact ⟨a :: first, rest, st1, by rw [h1]; rfl, by simp [runActs, ha, h2], h3⟩

end Xcore.CacheConc
