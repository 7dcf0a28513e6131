import Verif.Spec.CacheFiles
import Verif.Proof.CacheSim

/-! # C111: what the ideal cache holds are the contents of files -/

namespace Xcore.CacheFiles

open Xcore.Cache (Env Op)
open Xcore.Cache.Spec

variable {O D : Type}

theorem diskAfter_append (disk : Disk D) (a b : List (Event O D)) : diskAfter disk (a ++ b) = diskAfter (diskAfter disk a) b := by
  induction a generalizing disk with
  | nil => rfl
  | cons e a ih => exact ih _

theorem calls_append (disk : Disk D) (a b : List (Event (Timed O) D)) : calls disk (a ++ b) = calls disk a ++ calls (diskAfter disk a) b := by
  induction a generalizing disk with
  | nil => rfl
  | cons e a ih => cases e <;> simp only [List.cons_append, calls, diskAfter, Event.disk, ih]

theorem after_append (s : Ideal D) (a b : List (Env × Op D)) : after s (a ++ b) = after (after s a) b := by
  induction a generalizing s with
  | nil => rfl
  | cons p a ih => exact ih _

theorem valid_iff {disk : Disk D} {k : Str} {t : Int} : fileValidator disk k t = true ↔ ∃ f, disk k = some f ∧ f.mtime ≤ t := by
  unfold fileValidator
  cases disk k with
  | none => simp
  | some f => by_cases h : t < f.mtime <;> simp [h] <;> omega

/-- The records of the ideal cache after a call: old ones, up to the TTL, or the stored one. -/
theorem next_tab {s : Ideal D} {env : Env} {op : Op D} {k : Str} {r : Rec D} (h : (next s env op).tab k = some r) :
    (op = .set k r.data ∧ r.ctime = env.clk 0) ∨ ∃ r', s.tab k = some r' ∧ r'.data = r.data ∧ r'.ctime = r.ctime := by
  have keeps : ∀ {t : Str → Option (Rec D)} {p : Str → Rec D → Prop} [∀ k r, Decidable (p k r)], keep t p k = some r → t k = some r := by
    intro t p _ e
    unfold keep at e
    split at e
    · split at e
      · cases e; assumption
      · cases e
    · cases e
  cases op with
  | set k' d =>
    simp only [next, upd] at h
    split at h
    · subst k'; cases h; exact Or.inl ⟨rfl, rfl⟩
    · exact Or.inr ⟨r, h, rfl, rfl⟩
  | setTTL k' t =>
    simp only [next, upd] at h
    split at h
    · subst k'
      obtain ⟨r', h', e⟩ := Option.map_eq_some_iff.1 h
      subst e; exact Or.inr ⟨r', h', rfl, rfl⟩
    · exact Or.inr ⟨r, h, rfl, rfl⟩
  | del k' =>
    simp only [next, upd] at h
    split at h
    · cases h
    · exact Or.inr ⟨r, h, rfl, rfl⟩
  | get k' => simp only [next] at h; exact Or.inr ⟨r, keeps h, rfl, rfl⟩
  | clean p => simp only [next] at h; exact Or.inr ⟨r, keeps h, rfl, rfl⟩
  | verify => simp only [next] at h; exact Or.inr ⟨r, keeps h, rfl, rfl⟩
  | flush => cases h
  | count | setMaxitems _ | setExpire _ | setValidator _ => exact Or.inr ⟨r, h, rfl, rfl⟩

/-- The record was stored by one of the events, and a file that is not newer has its data. -/
structure Current (s : Ideal D) (disk : Disk D) (past : List (Event (Timed (Op D)) D)) : Prop where
  guarded : s.hasValidator = true
  stored : ∀ k r, s.tab k = some r → ∃ pre clk clkAt post, past = pre ++ .call ⟨clk, clkAt, .set k r.data⟩ :: post ∧ clk 0 = r.ctime
  same : ∀ k r f, s.tab k = some r → disk k = some f → f.mtime ≤ r.ctime → f.content = r.data

theorem next_validator {s : Ideal D} {env : Env} {op : Op D} (h : s.hasValidator = true) (ho : op ≠ .setValidator false) :
    (next s env op).hasValidator = true := by
  cases op <;> first | exact h | skip
  rename_i b
  cases b
  · exact absurd rfl ho
  · rfl

theorem current_step {s : Ideal D} {disk : Disk D} {past : List (Event (Timed (Op D)) D)} (hc : Current s disk past) (e : Event (Timed (Op D)) D)
    (hl : ∀ clk clkAt k d, e = .call ⟨clk, clkAt, .set k d⟩ → ∃ m, disk k = some ⟨d, m⟩)
    (ht : ∀ pre clk clkAt k d mid d' m, past ++ [e] = pre ++ .call ⟨clk, clkAt, .set k d⟩ :: (mid ++ [.write k d' m]) → clk 0 < m)
    (hg : ∀ clk clkAt, e ≠ .call ⟨clk, clkAt, .setValidator false⟩) : Current (after s (calls disk [e])) (e.disk disk) (past ++ [e]) := by
  have more : ∀ k (r : Rec D), (∃ pre clk clkAt post, past = pre ++ .call ⟨clk, clkAt, .set k r.data⟩ :: post ∧ clk 0 = r.ctime) →
      ∃ pre clk clkAt post, past ++ [e] = pre ++ .call ⟨clk, clkAt, .set k r.data⟩ :: post ∧ clk 0 = r.ctime := by
    rintro k r ⟨pre, clk, clkAt, post, e1, e2⟩
    exact ⟨pre, clk, clkAt, post ++ [e], by rw [e1]; simp, e2⟩
  cases e with
  | call c =>
    obtain ⟨clk, clkAt, op⟩ := c
    simp only [calls, after, Event.disk]
    refine ⟨next_validator hc.guarded (fun h => hg clk clkAt (by rw [h])), ?_, ?_⟩
    · intro k r h
      rcases next_tab h with ⟨rfl, h2⟩ | ⟨r', h1, h2, h3⟩
      · exact ⟨past, clk, clkAt, [], rfl, h2.symm⟩
      · have := more k r' (hc.stored k r' h1)
        rw [h2, h3] at this; exact this
    · intro k r f h hd hm
      rcases next_tab h with ⟨rfl, h2⟩ | ⟨r', h1, h2, h3⟩
      · obtain ⟨m, hm⟩ := hl _ _ _ _ rfl
        rw [hm] at hd; cases hd; rfl
      · rw [← h2]; exact hc.same k r' f h1 hd (by omega)
  | write p d' m =>
    refine ⟨hc.guarded, fun k r h => more k r (hc.stored k r h), ?_⟩
    intro k r f h hd hm
    simp only [Event.disk, put] at hd
    split at hd
    · subst k; cases hd
      obtain ⟨pre, clk, clkAt, post, e1, e2⟩ := hc.stored p r h
      have := ht pre clk clkAt p r.data post d' m (by rw [e1]; simp)
      dsimp only at hm
      omega
    · exact hc.same k r f h hd hm
  | remove p =>
    refine ⟨hc.guarded, fun k r h => more k r (hc.stored k r h), ?_⟩
    intro k r f h hd hm
    simp only [Event.disk, put] at hd
    split at hd
    · cases hd
    · exact hc.same k r f h hd hm

theorem current (e : Int) (env0 : Env) (disk : Disk D) (evs : List (Event (Timed (Op D)) D)) (hl : Loads disk evs) (ht : Timely evs) (hg : Guarded evs) :
    Current (after (Ideal.empty e) ((env0, .setValidator true) :: calls disk evs)) (diskAfter disk evs) evs := by
  show Current (after (next (Ideal.empty e) env0 (.setValidator true)) (calls disk evs)) _ _
  generalize hn : evs.length = n
  induction n generalizing evs with
  | zero =>
    cases List.length_eq_zero_iff.1 hn
    exact ⟨rfl, fun k r h => (by cases h), fun k r f h => (by cases h)⟩
  | succ n ih =>
    obtain ⟨past, x, rfl⟩ : ∃ past x, evs = past ++ [x] := by
      have : evs ≠ [] := by rintro rfl; cases hn
      exact ⟨evs.dropLast, evs.getLast this, (List.dropLast_concat_getLast this).symm⟩
    have hp := ih past
      (fun pre clk clkAt k d post h => hl pre clk clkAt k d (post ++ [x]) (by rw [h]; simp))
      (fun pre clk clkAt k d mid d' m post h => ht pre clk clkAt k d mid d' m (post ++ [x]) (by rw [h]; simp))
      (fun clk clkAt h => hg clk clkAt (List.mem_append_left _ h)) (by simpa using hn)
    rw [calls_append, after_append, diskAfter_append]
    exact current_step hp x (fun clk clkAt k d h => hl past clk clkAt k d [] (by rw [h]))
      (fun pre clk clkAt k d mid d' m h => ht pre clk clkAt k d mid d' m [] h)
      (fun clk clkAt h => hg clk clkAt (by simp [h]))

/-- What the ideal cache answers is the content of the file. -/
theorem answer_current {s : Ideal D} {disk : Disk D} {past : List (Event (Timed (Op D)) D)} (hc : Current s disk past) {clk : Nat → Int} {clkAt : Str → Int}
    {k : Str} {v : D} {b : Bool} (h : answer s ⟨clk, clkAt, fileValidator disk⟩ k = (some v, b)) : ∃ m, disk k = some ⟨v, m⟩ := by
  unfold answer at h
  split at h
  · rename_i r hr
    split at h
    · cases h
    · rename_i hb
      cases h
      have hv : fileValidator disk k r.ctime = true := by
        cases hv : fileValidator disk k r.ctime with
        | true => rfl
        | false => exact absurd (Or.inr (Or.inl ⟨hc.guarded, hv⟩)) hb
      obtain ⟨f, hf, hm⟩ := valid_iff.1 hv
      exact ⟨f.mtime, by rw [hf, ← hc.same k r f hr hf hm]⟩
  · cases h

/-- After `Verify` the validator is not needed. -/
theorem answer_verified {s : Ideal D} {disk : Disk D} {past : List (Event (Timed (Op D)) D)} (hc : Current s disk past) {clk : Nat → Int} {clkAt : Str → Int}
    {env : Env} {k : Str} {v : D} {b : Bool} (h : answer (next s ⟨clk, clkAt, fileValidator disk⟩ .verify) env k = (some v, b)) :
    ∃ m, disk k = some ⟨v, m⟩ := by
  unfold answer at h
  split at h
  · rename_i r hr
    split at h
    · cases h
    · cases h
      simp only [next, keep] at hr
      split at hr
      · rename_i r' hr'
        split at hr
        · rename_i hp
          cases hr
          obtain ⟨f, hf, hm⟩ := valid_iff.1 (hp.2 hc.guarded)
          exact ⟨f.mtime, by rw [hf, ← hc.same k r f hr' hf hm]⟩
        · cases hr
      · cases hr
  · cases h

/-! ## When the entry is served -/

/-- The record of `k` is there, without TTL and expiration. -/
structure Kept (s : Ideal D) (k : Str) (d : D) (t : Int) : Prop where
  guarded : s.hasValidator = true
  lasting : s.expire = 0
  there : s.tab k = some ⟨d, t, 0⟩

theorem next_expire {s : Ideal D} {env : Env} {op : Op D} (h : s.expire = 0) (ho : ∀ e, op ≠ .setExpire e) : (next s env op).expire = 0 := by
  cases op <;> first | exact h | skip
  exact absurd rfl (ho _)

theorem lasting_after {hist : List (Env × Op D)} {s : Ideal D} (h : s.expire = 0) (ho : ∀ p ∈ hist, ∀ e, p.2 ≠ .setExpire e) : (after s hist).expire = 0 := by
  induction hist generalizing s with
  | nil => exact h
  | cons p hist ih => exact ih (next_expire h (ho p (by simp))) (fun q hq => ho q (by simp [hq]))

theorem guarded_after {hist : List (Env × Op D)} {s : Ideal D} (h : s.hasValidator = true) (ho : ∀ p ∈ hist, p.2 ≠ .setValidator false) :
    (after s hist).hasValidator = true := by
  induction hist generalizing s with
  | nil => exact h
  | cons p hist ih => exact ih (next_validator h (ho p (by simp))) (fun q hq => ho q (by simp [hq]))

theorem mem_calls {disk : Disk D} {evs : List (Event (Timed O) D)} {p : Env × O} (h : p ∈ calls disk evs) : ∃ clk clkAt, .call ⟨clk, clkAt, p.2⟩ ∈ evs := by
  induction evs generalizing disk with
  | nil => cases h
  | cons e evs ih =>
    cases e with
    | call c =>
      obtain ⟨clk, clkAt, op⟩ := c
      simp only [calls, List.mem_cons] at h
      rcases h with rfl | h
      · exact ⟨clk, clkAt, by simp⟩
      · obtain ⟨a, b, h⟩ := ih h; exact ⟨a, b, by simp [h]⟩
    | write _ _ _ | remove _ => obtain ⟨a, b, h⟩ := ih h; exact ⟨a, b, by simp [h]⟩

theorem not_bad {s : Ideal D} {k : Str} {d : D} {t : Int} (hk : Kept s k d t) {env : Env} (hv : env.valid k t = true) : ¬ Bad s env k ⟨d, t, 0⟩ := by
  rintro (h | h | h)
  · exact h.1 rfl
  · rw [hv] at h; exact absurd h.2 nofun
  · exact h.1 hk.lasting

theorem spares_keep {k : Str} {d : D} {t : Int} {evs : List (Event (Timed (Op D)) D)} {disk : Disk D} {s : Ideal D} (hk : Kept s k d t) (hs : Spares k t disk evs)
    (hg : Guarded evs) (hl : Lasting evs) : Kept (after s (calls disk evs)) k d t := by
  induction evs generalizing disk s with
  | nil => exact hk
  | cons e evs ih =>
    have hs' : Spares k t (e.disk disk) evs := fun pre clk clkAt op post h => hs (e :: pre) clk clkAt op post (by rw [h]; rfl)
    have hg' : Guarded evs := fun clk clkAt h => hg clk clkAt (by simp [h])
    have hl' : Lasting evs := fun clk clkAt x h => hl clk clkAt x (by simp [h])
    cases e with
    | write _ _ _ => exact ih hk hs' hg' hl'
    | remove _ => exact ih hk hs' hg' hl'
    | call c =>
      obtain ⟨clk, clkAt, op⟩ := c
      refine ih (s := next s _ op) ⟨next_validator hk.guarded ?_, next_expire hk.lasting ?_, ?_⟩ hs' hg' hl'
      · rintro rfl; exact hg clk clkAt (by simp)
      · rintro x rfl; exact hl clk clkAt x (by simp)
      · have h0 := hs [] clk clkAt op evs rfl
        have keeps : ∀ {p : Str → Rec D → Prop} [∀ k r, Decidable (p k r)], p k ⟨d, t, 0⟩ → keep s.tab p k = some ⟨d, t, 0⟩ := by
          intro p _ hp
          unfold keep; rw [hk.there]; exact if_pos hp
        cases op with
        | set k' _ => simp only [next, upd]; rw [if_neg (Ne.symm h0)]; exact hk.there
        | setTTL k' _ => simp only [next, upd]; rw [if_neg (Ne.symm h0)]; exact hk.there
        | del k' => simp only [next, upd]; rw [if_neg (Ne.symm h0)]; exact hk.there
        | flush => exact h0.elim
        | get k' =>
          simp only [next]
          refine keeps ?_
          rintro ⟨e, hb⟩
          subst e
          exact not_bad hk (valid_iff.2 (h0 rfl)) hb
        | verify => simp only [next]; exact keeps ⟨fun h => h.1 hk.lasting, fun _ => valid_iff.2 h0⟩
        | clean _ => simp only [next]; exact keeps (fun h => h.1 hk.lasting)
        | count | setMaxitems _ | setExpire _ | setValidator _ => exact hk.there

/-- What the ideal cache answers for an entry that was left alone. -/
theorem answer_spared (env0 : Env) (disk : Disk D) {pre post : List (Event (Timed (Op D)) D)} {clk : Nat → Int} {clkAt : Str → Int} {k : Str} {d : D}
    (hs : Spares k (clk 0) (diskAfter disk pre) post) (hg : Guarded (pre ++ .call ⟨clk, clkAt, .set k d⟩ :: post))
    (hl : Lasting (pre ++ .call ⟨clk, clkAt, .set k d⟩ :: post)) (env : Env) :
    answer (after (Ideal.empty 0) ((env0, .setValidator true) :: calls disk (pre ++ .call ⟨clk, clkAt, .set k d⟩ :: post))) env k =
      if env.valid k (clk 0) = true then (some d, false) else (none, true) := by
  have hk : Kept (after (Ideal.empty 0) ((env0, .setValidator true) :: calls disk (pre ++ .call ⟨clk, clkAt, .set k d⟩ :: post))) k d (clk 0) := by
    show Kept (after (next (Ideal.empty 0) env0 (.setValidator true)) _) _ _ _
    rw [calls_append, after_append]
    refine spares_keep (s := next _ _ _) ⟨next_validator (guarded_after rfl ?_) nofun, next_expire (lasting_after rfl ?_) nofun, ?_⟩ hs ?_ ?_
    · intro p hp e
      obtain ⟨a, b, h⟩ := mem_calls hp
      exact hg a b (by rw [← e]; simp [h])
    · intro p hp x e
      obtain ⟨a, b, h⟩ := mem_calls hp
      exact hl a b x (by rw [← e]; simp [h])
    · simp [next, upd]
    · intro a b h; exact hg a b (by simp [h])
    · intro a b x h; exact hl a b x (by simp [h])
  unfold answer
  rw [hk.there]
  dsimp only
  by_cases hv : env.valid k (clk 0) = true
  · rw [if_neg (not_bad hk hv), if_pos hv]
  · rw [if_neg hv, if_pos]
    exact Or.inr (Or.inl ⟨hk.guarded, by simpa using hv⟩)

end Xcore.CacheFiles
