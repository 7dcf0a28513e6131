import Verif.Proof.CacheFilesConc
import Verif.Proof.V1.Cache

/-!
# C111: a cache of files with the validator of the documentation

`calls disk evs` (Model/CacheFiles.lean) are the calls among the events `evs`, each with the validator `FileValidator` of the documentation, which
looks at the files as they are at that moment; `diskAfter disk evs` are the files after the events. The program begins with `Validator = FileValidator`.
-/

namespace Xcore.CacheFiles

open Xcore.Cache (Env Op new run get)
open Xcore.Cache.Spec (Ideal Quiet after answer)

variable {D : Type}

/-! ## C111 -/

/-- **C111** (partial: false if a file can get an older time, or is changed between reading and storing it, see below) If what is stored is what the
file contains, files that are changed afterwards get a later time, and the validator stays, then the data that `Get` returns are what the file
contains at that moment, whatever calls and changes of files came before. -/
theorem C111_never_out_of_date_partial (m e : Int) (env0 : Env) (disk : Disk D) (evs : List (Event (Timed (Op D)) D)) (hl : Loads disk evs) (ht : Timely evs)
    (hg : Guarded evs) (clk : Nat → Int) (clkAt : Str → Int) (k : Str) (v : D) (b : Bool)
    (h : (get (run (new m e) ((env0, .setValidator true) :: calls disk evs)).1 ⟨clk, clkAt, fileValidator (diskAfter disk evs)⟩ k).2 = (some v, b)) :
    ∃ mt, diskAfter disk evs k = some ⟨v, mt⟩ := by
  rcases ((Cache.Sub.new m e).run ((env0, .setValidator true) :: calls disk evs)).answer_or_miss
    ⟨clk, clkAt, fileValidator (diskAfter disk evs)⟩ k with h1 | ⟨_, h1⟩
  · exact answer_current (current e env0 disk evs hl ht hg) (h1.symm.trans h)
  · rw [h1] at h; cases h

/-- **C111** (partial, under the same conditions) After `Verify` everything in the cache is up to date: a `Get` returns what the file contains, also if its
validator does not look at the files. -/
theorem C111_verified_cache_partial (m e : Int) (env0 : Env) (disk : Disk D) (evs : List (Event (Timed (Op D)) D)) (hl : Loads disk evs) (ht : Timely evs)
    (hg : Guarded evs) (clk : Nat → Int) (clkAt : Str → Int) (env : Env) (k : Str) (v : D) (b : Bool)
    (h : (get (run (new m e) ((env0, .setValidator true) :: calls disk (evs ++ [.call ⟨clk, clkAt, .verify⟩]))).1 env k).2 = (some v, b)) :
    ∃ mt, diskAfter disk evs k = some ⟨v, mt⟩ := by
  rcases ((Cache.Sub.new m e).run ((env0, .setValidator true) :: calls disk (evs ++ [.call ⟨clk, clkAt, .verify⟩]))).answer_or_miss env k with h1 | ⟨_, h1⟩
  · have hc := current e env0 disk evs hl ht hg
    have h2 := h1.symm.trans h
    rw [calls_append, ← List.cons_append, after_append] at h2
    exact answer_verified hc h2
  · rw [h1] at h; cases h

/-- **C111** Exactly: an entry that was stored at the time `clk 0` and left alone since, in a cache that evicts nothing, is served as long as there is a
file at its path that is not newer, and reported as invalid otherwise. The content of the file does not matter. -/
theorem C111_served_exactly (m : Int) (env0 : Env) (disk : Disk D) {pre post : List (Event (Timed (Op D)) D)} {clk : Nat → Int} {clkAt : Str → Int} {k : Str} {d : D}
    {evs : List (Event (Timed (Op D)) D)} (he : evs = pre ++ .call ⟨clk, clkAt, .set k d⟩ :: post) (hs : Spares k (clk 0) (diskAfter disk pre) post) (hg : Guarded evs)
    (hl : Lasting evs) (hq : Quiet (new m 0) ((env0, .setValidator true) :: calls disk evs)) (clk' : Nat → Int) (clkAt' : Str → Int) :
    (get (run (new m 0) ((env0, .setValidator true) :: calls disk evs)).1 ⟨clk', clkAt', fileValidator (diskAfter disk evs)⟩ k).2 =
      match diskAfter disk evs k with
      | some f => if f.mtime ≤ clk 0 then (some d, false) else (none, true)
      | none => (none, true) := by
  rw [((Cache.Same.new m 0).run _ hq).answer]
  rw [he] at hg hl ⊢
  rw [answer_spared env0 disk hs hg hl]
  generalize diskAfter disk (pre ++ .call ⟨clk, clkAt, .set k d⟩ :: post) = disk'
  by_cases hv : fileValidator disk' k (clk 0) = true
  · rw [if_pos hv]
    obtain ⟨f, hf, hm⟩ := valid_iff.1 hv
    rw [hf]
    exact (if_pos hm).symm
  · rw [if_neg hv]
    cases hd : disk' k with
    | none => rfl
    | some f => exact (if_neg fun hm => hv (valid_iff.2 ⟨f, hd, hm⟩)).symm

/-- **C111** A file that is not changed is served from the cache: `Get`s of it and `Verify`s in between do not matter. -/
theorem C111_unchanged_file_is_served (m : Int) (env0 : Env) (disk : Disk D) {pre post : List (Event (Timed (Op D)) D)} {clk : Nat → Int} {clkAt : Str → Int} {k : Str}
    {d : D} {mt : Int} {evs : List (Event (Timed (Op D)) D)} (he : evs = pre ++ .call ⟨clk, clkAt, .set k d⟩ :: post)
    (hf : diskAfter disk pre k = some ⟨d, mt⟩) (hm : mt ≤ clk 0) (hw : ∀ d' mt', .write k d' mt' ∉ post) (hr : .remove k ∉ post)
    (hc : ∀ clk' clkAt' op, .call ⟨clk', clkAt', op⟩ ∈ post → op ≠ .flush ∧ op ≠ .del k ∧ ∀ d' t, op ≠ .set k d' ∧ op ≠ .setTTL k t)
    (hg : Guarded evs) (hl : Lasting evs) (hq : Quiet (new m 0) ((env0, .setValidator true) :: calls disk evs)) (clk' : Nat → Int) (clkAt' : Str → Int) :
    (get (run (new m 0) ((env0, .setValidator true) :: calls disk evs)).1 ⟨clk', clkAt', fileValidator (diskAfter disk evs)⟩ k).2 = (some d, false) := by
  have stays : ∀ (l : List (Event (Timed (Op D)) D)) (disk : Disk D), (∀ d' mt', .write k d' mt' ∉ l) → .remove k ∉ l → diskAfter disk l k = disk k := by
    intro l
    induction l with
    | nil => intro disk _ _; rfl
    | cons e l ih =>
      intro disk h1 h2
      have := ih (e.disk disk) (fun d' mt' h => h1 d' mt' (by simp [h])) (fun h => h2 (by simp [h]))
      rw [diskAfter, this]
      cases e with
      | call _ => rfl
      | write p d' mt' =>
        refine if_neg fun e => ?_
        subst e; exact h1 d' mt' (by simp)
      | remove p =>
        refine if_neg fun e => ?_
        subst e; exact h2 (by simp)
  have hs : Spares k (clk 0) (diskAfter disk pre) post := by
    intro pre' clk' clkAt' op post' e
    have hh : diskAfter (diskAfter disk pre) pre' k = some ⟨d, mt⟩ := by
      rw [stays pre' _ (fun d' mt' h => hw d' mt' (by rw [e]; simp [h])) (fun h => hr (by rw [e]; simp [h])), hf]
    have hc' := hc clk' clkAt' op (by rw [e]; simp)
    cases op with
    | set k' d' => exact fun h => (hc'.2.2 d' 0).1 (by rw [h])
    | setTTL k' t => exact fun h => (hc'.2.2 d t).2 (by rw [h])
    | del k' => exact fun h => hc'.2.1 (by rw [h])
    | flush => exact hc'.1 rfl
    | get k' => exact fun _ => ⟨_, hh, hm⟩
    | verify => exact ⟨_, hh, hm⟩
    | count | clean _ | setMaxitems _ | setExpire _ | setValidator _ => trivial
  rw [C111_served_exactly m env0 disk he hs hg hl hq]
  have : diskAfter disk evs k = some ⟨d, mt⟩ := by
    rw [he, diskAfter_append]
    show diskAfter (diskAfter disk pre) post k = _
    rw [stays post _ hw hr]; exact hf
  rw [this]
  exact if_pos hm

/-- The clock at one time. -/
def at_ (t : Int) (op : Op D) : Event (Timed (Op D)) D := .call ⟨fun _ => t, fun _ => t, op⟩

/-- A file `f` with the content 1. -/
def fileF : Disk Nat := fun p => if p = b!"f" then some ⟨1, 0⟩ else none

/-- A program stores the file at 5 and reads it at 6, the file is changed at 7, the program notices at 8 and stores it again at 9. -/
def story : List (Event (Timed (Op Nat)) Nat) :=
  [at_ 5 (.set b!"f" 1), at_ 6 (.get b!"f"), .write b!"f" 2 7, at_ 8 (.get b!"f"), at_ 9 (.set b!"f" 2)]

theorem story_loads : Loads fileF story := by
  intro pre clk clkAt k d post h
  rcases pre with _ | ⟨_, _ | ⟨_, _ | ⟨_, _ | ⟨_, _ | ⟨_, _ | ⟨_, _⟩⟩⟩⟩⟩⟩ <;> simp [story, at_] at h
  · obtain ⟨⟨-, -, rfl, rfl⟩, -⟩ := h; exact ⟨0, rfl⟩
  · obtain ⟨rfl, rfl, rfl, rfl, ⟨-, -, rfl, rfl⟩, -⟩ := h; exact ⟨7, rfl⟩

theorem story_timely : Timely story := by
  intro pre clk clkAt k d mid d' m post h
  rcases pre with _ | ⟨_, _ | ⟨_, _ | ⟨_, _ | ⟨_, _ | ⟨_, _ | ⟨_, _⟩⟩⟩⟩⟩⟩ <;> simp [story, at_] at h
  obtain ⟨⟨rfl, -, rfl, rfl⟩, h⟩ := h
  rcases mid with _ | ⟨_, _ | ⟨_, _ | ⟨_, _ | ⟨_, _ | ⟨_, _⟩⟩⟩⟩⟩ <;> simp at h
  obtain ⟨-, ⟨-, rfl⟩, -⟩ := h
  decide

/-- The conditions are met by the story; before and after the change the file is served, with its content at that time, and in between not. -/
example : Loads fileF story ∧ Timely story ∧ Guarded story ∧
    (∀ env0 : Env, (run (new 10 0) ((env0, .setValidator true) :: calls fileF story)).2 = [.unit, .unit, .got (some 1) false, .got none true, .unit]) ∧
    ∀ env0 : Env, (get (run (new 10 0) ((env0, .setValidator true) :: calls fileF story)).1 ⟨fun _ => 10, fun _ => 10, fileValidator (diskAfter fileF story)⟩
      b!"f").2 = (some 2, false) :=
  ⟨story_loads, story_timely, fun clk clkAt h => by simp [story, at_] at h, fun _ => rfl, fun _ => rfl⟩

/-- After `Verify` as well; there it removes nothing, and without the second `Set` it removes the entry. -/
example : (∀ env0 : Env, (get (run (new 10 0) ((env0, .setValidator true) :: calls fileF (story ++ [at_ 10 .verify]))).1
      ⟨fun _ => 10, fun _ => 10, fun _ _ => true⟩ b!"f").2 = (some 2, false)) ∧
    ∀ env0 : Env, (get (run (new 10 0) ((env0, .setValidator true) :: calls fileF ([at_ 5 (.set b!"f" 1), .write b!"f" 2 7] ++ [at_ 10 .verify]))).1
      ⟨fun _ => 10, fun _ => 10, fun _ _ => true⟩ b!"f").2 = (none, false) :=
  ⟨fun _ => rfl, fun _ => rfl⟩

/-- The conditions of the exact theorem: the first `Set` of the story, the `Get`, and the change of the file. -/
example (env0 : Env) : Spares b!"f" 5 fileF ([at_ 6 (.get b!"f"), .write b!"f" 2 7] : List (Event (Timed (Op Nat)) Nat)) ∧
    Guarded (story.take 3) ∧ Lasting (story.take 3) ∧ Quiet (new 10 0) ((env0, .setValidator true) :: calls fileF (story.take 3)) := by
  refine ⟨?_, fun _ _ h => by simp [story, at_] at h, fun _ _ _ h => by simp [story, at_] at h, ?_⟩
  · intro pre clk clkAt op post h
    rcases pre with _ | ⟨_, _ | ⟨_, _ | ⟨_, _⟩⟩⟩ <;> simp [at_] at h
    obtain ⟨⟨-, -, rfl⟩, -⟩ := h
    exact fun _ => ⟨_, rfl, by decide⟩
  · refine ⟨id, ?_, id, trivial⟩
    show ¬ (_ ∧ _)
    exact fun h => absurd h.2 (show ¬ ((10 : Int) ≤ 1) by decide)

/-- After the events the file `f` has the content 2, and `Get` returns 1, at any time. -/
def Misses (evs : List (Event (Timed (Op Nat)) Nat)) : Prop :=
  (∃ mt, diskAfter fileF evs b!"f" = some ⟨2, mt⟩) ∧ ∀ (env0 : Env) (later : Int),
    (get (run (new 0 0) ((env0, .setValidator true) :: calls fileF evs)).1
      ⟨fun _ => later, fun _ => later, fileValidator (diskAfter fileF evs)⟩ b!"f").2 = (some 1, false)

/-- **C111** What goes wrong: the cache returns old data for ever if the file is replaced by one with an older time (`mv` keeps the time), if it is changed
at the very instant of storing, and if it is changed after it was read and before `Set`. -/
theorem C111_out_of_date : Misses [at_ 5 (.set b!"f" 1), .write b!"f" 2 3] ∧ Misses [at_ 5 (.set b!"f" 1), .write b!"f" 2 5] ∧
    Misses [.write b!"f" 2 4, at_ 5 (.set b!"f" 1)] :=
  ⟨⟨⟨3, rfl⟩, fun _ _ => rfl⟩, ⟨⟨5, rfl⟩, fun _ _ => rfl⟩, ⟨⟨4, rfl⟩, fun _ _ => rfl⟩⟩

/-! ## Goroutines -/

/-- **C111** (partial, under the same conditions) Any number of goroutines use the cache while files change, in any interleaving: if a `Get` of `k` returns
`v`, then at some moment since this `Get` began the file `k` contained `v`. -/
theorem C111_concurrent_never_out_of_date_partial {m e : Int} {disk now : Disk D} {evs : List (Event (CacheConc.Act D) D)} {st st' : CacheConc.St D}
    (hr : Goes m e disk evs now st) (hl : LoadsC disk evs) (ht : TimelyC evs) (hg : GuardedC evs) {a : CacheConc.Act D}
    (ha : CacheConc.apply st a = some st') {t : Nat} {k : Str} {v : D} {b : Bool} (ho : st'.obs = st.obs ++ [.returned t k (some v) b]) :
    SeenDuring disk evs t k v := by
  obtain ⟨id, x, h1, h2, h3⟩ := CacheConc.returns ha ho
  obtain ⟨x', h4, h5⟩ := (fresh hr hl ht hg).seen t k id (by rw [h1]; rfl)
  rw [h2] at h4; cases h4
  rw [h3] at h5; exact h5

/-- Goroutine 1 looks at the file at 6; then it is changed. -/
def storyC : List (Event (CacheConc.Act Nat) Nat) :=
  [.call (.set ⟨fun _ => 5, fun _ => 5, fun _ _ => true⟩ b!"f" 1), .call (.getStart 1 b!"f"), .call (.checkTTL 1 6), .call (.checkVal 1 true),
    .write b!"f" 2 7, .call (.checkExp 1 8), .call (.writeRtime 1 8)]

/-- The conditions are met, and the `Get` returns what the file contained when it looked. -/
example : ∃ (now : Disk Nat) (st st' : CacheConc.St Nat), Goes 10 0 fileF storyC now st ∧ LoadsC fileF storyC ∧ TimelyC storyC ∧ GuardedC storyC ∧
    CacheConc.apply st (.getEnd 1) = some st' ∧ st'.obs = st.obs ++ [.returned 1 b!"f" (some 1) false] := by
  refine ⟨_, _, _, ((((((((Goes.start rfl).step (a := .set _ b!"f" 1) nofun rfl).step (a := .getStart 1 b!"f") nofun rfl).step (a := .checkTTL 1 6) nofun rfl).step
    (a := .checkVal 1 true) ?_ rfl).write b!"f" 2 7).step (a := .checkExp 1 8) nofun rfl).step (a := .writeRtime 1 8) nofun rfl), ?_, ?_, ?_, rfl, rfl⟩
  · rintro t ok k id x ⟨rfl, rfl⟩ h1 h2
    cases h1; cases h2; rfl
  · intro pre env k d post h
    rcases pre with _ | ⟨_, _ | ⟨_, _ | ⟨_, _ | ⟨_, _ | ⟨_, _ | ⟨_, _ | ⟨_, _ | ⟨_, _⟩⟩⟩⟩⟩⟩⟩⟩ <;> simp [storyC] at h
    obtain ⟨⟨-, rfl, rfl⟩, -⟩ := h; exact ⟨0, rfl⟩
  · intro pre env k d mid d' m post h
    rcases pre with _ | ⟨_, _ | ⟨_, _ | ⟨_, _ | ⟨_, _ | ⟨_, _ | ⟨_, _ | ⟨_, _ | ⟨_, _⟩⟩⟩⟩⟩⟩⟩⟩ <;> simp [storyC] at h
    obtain ⟨⟨rfl, rfl, rfl⟩, h⟩ := h
    rcases mid with _ | ⟨_, _ | ⟨_, _ | ⟨_, _ | ⟨_, _ | ⟨_, _ | ⟨_, _ | ⟨_, _⟩⟩⟩⟩⟩⟩⟩ <;> simp at h
    obtain ⟨-, -, -, ⟨-, rfl⟩, -⟩ := h
    decide
  · simp [GuardedC, storyC]

/-! ## Version 1 -/

theorem calls_up (disk : Disk D) (evs : List (Event (Timed (V1.Cache.Op D)) D)) : V1.Cache.upAll (calls disk evs) = calls disk (evs.map Event.up) := by
  induction evs generalizing disk with
  | nil => rfl
  | cons e evs ih =>
    cases e with
    | call c => exact congrArg _ (ih disk)
    | write p d m => exact ih _
    | remove p => exact ih _

theorem diskAfter_up (disk : Disk D) (evs : List (Event (Timed (V1.Cache.Op D)) D)) : diskAfter disk (evs.map Event.up) = diskAfter disk evs := by
  induction evs generalizing disk with
  | nil => rfl
  | cons e evs ih => cases e <;> exact ih _

/-- **C111** (partial, as above) The same for the cache of version 1. -/
theorem C111_v1_never_out_of_date_partial (m e : Int) (env0 : Env) (disk : Disk D) (evs : List (Event (Timed (V1.Cache.Op D)) D)) (hl : Loads disk (evs.map Event.up))
    (ht : Timely (evs.map Event.up)) (hg : Guarded (evs.map Event.up)) (clk : Nat → Int) (clkAt : Str → Int) (k : Str) (v : D) (b : Bool)
    (h : (V1.Cache.get (V1.Cache.run (V1.Cache.new m e) ((env0, .setValidator true) :: calls disk evs)).1
      ⟨clk, clkAt, fileValidator (diskAfter disk evs)⟩ k).2 = (some v, b)) : ∃ mt, diskAfter disk evs k = some ⟨v, mt⟩ := by
  have hs : Cache.Sub (V1.Cache.run (V1.Cache.new m e : V1.Cache.Cache D) ((env0, .setValidator true) :: calls disk evs)).1.up
      (after (Ideal.empty e) (V1.Cache.upAll ((env0, .setValidator true) :: calls disk evs))) :=
    V1.Cache.sub_run (by rw [V1.Cache.up_new]; exact Cache.Sub.new m e) _
  rw [show V1.Cache.upAll ((env0, .setValidator true) :: calls disk evs) = (env0, .setValidator true) :: V1.Cache.upAll (calls disk evs) from rfl, calls_up] at hs
  have hc := current e env0 disk (evs.map Event.up) hl ht hg
  rw [diskAfter_up] at hc
  have hu := congrArg (fun x => x.2) (V1.Cache.up_get' (V1.Cache.run (V1.Cache.new m e) ((env0, .setValidator true) :: calls disk evs)).1
    ⟨clk, clkAt, fileValidator (diskAfter disk evs)⟩ k)
  dsimp only at hu
  rw [← hu] at h
  rcases hs.answer_or_miss ⟨clk, clkAt, fileValidator (diskAfter disk evs)⟩ k with h1 | ⟨_, h1⟩
  · exact answer_current hc (h1.symm.trans h)
  · rw [h1] at h; cases h

/-- **C111** The same for the cache of version 1: what is served, exactly. -/
theorem C111_v1_served_exactly (m : Int) (env0 : Env) (disk : Disk D) {pre post : List (Event (Timed (V1.Cache.Op D)) D)} {clk : Nat → Int} {clkAt : Str → Int}
    {k : Str} {d : D} {evs : List (Event (Timed (V1.Cache.Op D)) D)} (he : evs = pre ++ .call ⟨clk, clkAt, .set k d⟩ :: post)
    (hs : Spares k (clk 0) (diskAfter disk pre) (post.map Event.up)) (hg : Guarded (evs.map Event.up)) (hl : Lasting (evs.map Event.up))
    (hq : V1.Cache.Quiet (V1.Cache.new m 0) ((env0, .setValidator true) :: calls disk evs)) (clk' : Nat → Int) (clkAt' : Str → Int) :
    (V1.Cache.get (V1.Cache.run (V1.Cache.new m 0) ((env0, .setValidator true) :: calls disk evs)).1
      ⟨clk', clkAt', fileValidator (diskAfter disk evs)⟩ k).2 =
      match diskAfter disk evs k with
      | some f => if f.mtime ≤ clk 0 then (some d, false) else (none, true)
      | none => (none, true) := by
  have hs' : Cache.Same (V1.Cache.run (V1.Cache.new m 0 : V1.Cache.Cache D) ((env0, .setValidator true) :: calls disk evs)).1.up
      (after (Ideal.empty 0) (V1.Cache.upAll ((env0, .setValidator true) :: calls disk evs))) :=
    V1.Cache.same_run (by rw [V1.Cache.up_new]; exact Cache.Same.new m 0) _ hq
  rw [show V1.Cache.upAll ((env0, .setValidator true) :: calls disk evs) = (env0, .setValidator true) :: V1.Cache.upAll (calls disk evs) from rfl, calls_up] at hs'
  have hu := congrArg (fun x => x.2) (V1.Cache.up_get' (V1.Cache.run (V1.Cache.new m 0) ((env0, .setValidator true) :: calls disk evs)).1
    ⟨clk', clkAt', fileValidator (diskAfter disk evs)⟩ k)
  dsimp only at hu
  rw [← hu, hs'.answer, ← diskAfter_up disk evs]
  have he' : evs.map Event.up = pre.map Event.up ++ .call ⟨clk, clkAt, .set k d⟩ :: post.map Event.up := by rw [he]; simp [Event.up, V1.Cache.Op.up]
  rw [← diskAfter_up] at hs
  rw [he'] at hg hl ⊢
  rw [answer_spared env0 disk hs hg hl]
  generalize diskAfter disk _ = disk'
  by_cases hv : fileValidator disk' k (clk 0) = true
  · rw [if_pos hv]
    obtain ⟨f, hf, hm⟩ := valid_iff.1 hv
    rw [hf]
    exact (if_pos hm).symm
  · rw [if_neg hv]
    cases hd : disk' k with
    | none => rfl
    | some f => exact (if_neg fun hm => hv (valid_iff.2 ⟨f, hd, hm⟩)).symm

/-- The story in version 1. -/
def storyV1 : List (Event (Timed (V1.Cache.Op Nat)) Nat) :=
  [.call ⟨fun _ => 5, fun _ => 5, .set b!"f" 1⟩, .call ⟨fun _ => 6, fun _ => 6, .get b!"f"⟩, .write b!"f" 2 7, .call ⟨fun _ => 8, fun _ => 8, .get b!"f"⟩,
    .call ⟨fun _ => 9, fun _ => 9, .set b!"f" 2⟩]

/-- It meets the conditions, and the file is served with its new content. -/
example : Loads fileF (storyV1.map Event.up) ∧ Timely (storyV1.map Event.up) ∧ Guarded (storyV1.map Event.up) ∧
    ∀ env0 : Env, (V1.Cache.get (V1.Cache.run (V1.Cache.new 10 0) ((env0, .setValidator true) :: calls fileF storyV1)).1
      ⟨fun _ => 10, fun _ => 10, fileValidator (diskAfter fileF storyV1)⟩ b!"f").2 = (some 2, false) :=
  ⟨story_loads, story_timely, fun clk clkAt h => by simp [storyV1, Event.up, V1.Cache.Op.up] at h, fun _ => rfl⟩

/-- The conditions of the exact theorem, after the first `Set`. -/
example (env0 : Env) : Spares b!"f" 5 fileF (((storyV1.take 3).drop 1).map Event.up) ∧ Guarded ((storyV1.take 3).map Event.up) ∧
    Lasting ((storyV1.take 3).map Event.up) ∧ V1.Cache.Quiet (V1.Cache.new 10 0) ((env0, .setValidator true) :: calls fileF (storyV1.take 3)) := by
  refine ⟨?_, fun _ _ h => by simp [storyV1, Event.up, V1.Cache.Op.up] at h, fun _ _ _ h => by simp [storyV1, Event.up, V1.Cache.Op.up] at h, ?_⟩
  · intro pre clk clkAt op post h
    rcases pre with _ | ⟨_, _ | ⟨_, _ | ⟨_, _⟩⟩⟩ <;> simp [storyV1, Event.up, V1.Cache.Op.up] at h
    obtain ⟨⟨-, -, rfl⟩, -⟩ := h
    exact fun _ => ⟨_, rfl, by decide⟩
  · refine ⟨id, ?_, id, trivial⟩
    exact fun h => absurd h.2 (show ¬ ((10 : Int) ≤ 1) by decide)

end Xcore.CacheFiles
