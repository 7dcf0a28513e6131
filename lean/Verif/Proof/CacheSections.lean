import Verif.Spec.CacheHistory
import Verif.Proof.LockProgress
import Verif.Proof.CacheMore

/-! # Each locked method, executed alone access by access, is the function of the sequential model -/

namespace Xcore.Lock

variable {σ L : Type}

theorem Accesses.trans {f : σ → L → Outcome σ L} {s : σ} {l : L} {s1 : σ} {l1 : L} {s2 : σ} {l2 : L}
    (h1 : Accesses f s l s1 l1) (h2 : Accesses f s1 l1 s2 l2) : Accesses f s l s2 l2 := by
  induction h2 with
  | refl => exact h1
  | tail _ hs ih => exact .tail ih hs

theorem Accesses.head {f : σ → L → Outcome σ L} {s : σ} {l : L} {s1 : σ} {l1 : L} {s2 : σ} {l2 : L}
    (hs : f s l = .next s1 l1) (h2 : Accesses f s1 l1 s2 l2) : Accesses f s l s2 l2 :=
  Accesses.trans (.tail .refl hs) h2

end Xcore.Lock

namespace Xcore.Cache

open Lock

variable {D : Type}

/-- Successive deletions of the expired keys of a list. -/
def delExpired (env : Env) (ex : Int) : List (Str × Entry D) → AMap (Entry D) → AMap (Entry D)
  | [], m => m
  | (k, x) :: rest, m => delExpired env ex rest (if past x.ctime ex (env.clkAt k) then m.del k else m)

theorem delExpired_cons_ne (env : Env) (ex : Int) (q : Str × Entry D) : ∀ (l : List (Str × Entry D)) (m : AMap (Entry D)),
    (∀ p ∈ l, p.1 ≠ q.1) → delExpired env ex l (q :: m) = q :: delExpired env ex l m := by
  intro l
  induction l with
  | nil => intro m _; rfl
  | cons p l ih =>
    intro m h
    obtain ⟨k, x⟩ := p
    obtain ⟨k', x'⟩ := q
    have hne : k ≠ k' := h (k, x) (by simp)
    have ih' := fun m => ih m (fun p hp => h p (by simp [hp]))
    simp only [delExpired]
    split
    · have : AMap.del ((k', x') :: m) k = (k', x') :: AMap.del m k := by
        simp only [AMap.del]; rw [if_neg (fun e => hne e.symm)]
      rw [this, ih']
    · rw [ih']

theorem delExpired_self (env : Env) (ex : Int) : ∀ (m : AMap (Entry D)), m.Nodup →
    delExpired env ex m m = m.filter (fun p => !past p.2.ctime ex (env.clkAt p.1)) := by
  intro m
  induction m with
  | nil => intro _; rfl
  | cons p m ih =>
    intro hn
    obtain ⟨k, x⟩ := p
    have hn' : k ∉ AMap.keys m ∧ AMap.Nodup m := by
      have : (k :: AMap.keys m).Nodup := hn
      rw [List.nodup_cons] at this
      exact this
    have hne : ∀ p ∈ m, p.1 ≠ k := by
      intro p hp e
      apply hn'.1
      rw [← e]
      exact List.mem_map_of_mem hp
    simp only [delExpired, List.filter]
    by_cases hp : past x.ctime ex (env.clkAt k) = true
    · have hd : AMap.del ((k, x) :: m) k = m := by
        simp only [AMap.del, if_true]; exact AMap.del_of_not_mem hn'.1
      simp only [hp, if_true, hd, Bool.not_true]
      exact ih hn'.2
    · simp only [hp, Bool.false_eq_true, if_false, Bool.not_false]
      rw [delExpired_cons_ne env ex (k, x) m m hne, ih hn'.2]

/-- Locals during `mClean`. -/
def Loc.at (l : Loc D) (pc : Nat) (ok : Bool) (todo : List (Str × Entry D)) (num : Int) (i : Nat) : Loc D :=
  { l with pc, ok, todo, num, i }

theorem sweep_accesses (env : Env) (perc : Int) (res : Nat → Out D) (ok : Bool) (num : Int) (l : Loc D) :
    ∀ (todo : List (Str × Entry D)) (c : Cache D) (i : Nat), ∃ j,
    Accesses (cleanStep env perc res) c (l.at 11 ok todo num i)
      { c with items := delExpired env c.expire todo c.items } (l.at 12 ok [] num j) := by
  intro todo
  induction todo with
  | nil =>
    intro c i
    refine ⟨i, .head (s1 := c) (l1 := l.at 12 ok [] num i) ?_ .refl⟩
    rfl
  | cons p todo ih =>
    intro c i
    obtain ⟨k, x⟩ := p
    by_cases hp : past x.ctime c.expire (env.clkAt k) = true
    · obtain ⟨j, this⟩ := ih { c with items := c.items.del k } (i + 1)
      refine ⟨j, .head (s1 := { c with items := c.items.del k }) (l1 := l.at 11 ok todo num (i + 1)) ?_ ?_⟩
      · simp [cleanStep, Loc.at, hp]
      · simpa [delExpired, hp] using this
    · obtain ⟨j, this⟩ := ih c i
      refine ⟨j, .head (s1 := c) (l1 := l.at 11 ok todo num i) ?_ ?_⟩
      · simp [cleanStep, Loc.at, hp]
      · simpa [delExpired, hp] using this

/-- The eviction loop from index `i`, `n` iterations to go, the pile being `done ++ pile` with `done` of length `i`. -/
theorem evict_accesses (env : Env) (perc : Int) (res : Nat → Out D) (ok : Bool) (num : Int) (l : Loc D) :
    ∀ (n : Nat) (c : Cache D) (i : Nat) (rest : List Str), c.pile.drop i = rest → i ≤ c.pile.length → num = (i + n : Nat) →
    match evictLoop n c.items rest with
    | (items', some _) => Accesses (cleanStep env perc res) c (l.at 13 ok [] num i) { c with items := items' } (l.at 14 ok [] num (i + n))
    | (items', none) => ∃ j, Accesses (cleanStep env perc res) c (l.at 13 ok [] num i) { c with items := items' } (l.at 13 ok [] num j) ∧
        cleanStep env perc res { c with items := items' } (l.at 13 ok [] num j) = .panic := by
  intro n
  induction n with
  | zero =>
    intro c i rest hr hi hnum
    simp only [evictLoop]
    refine .head (s1 := c) (l1 := l.at 14 ok [] num i) ?_ .refl
    simp [cleanStep, Loc.at, hnum]
  | succ n ih =>
    intro c i rest hr hi hnum
    cases rest with
    | nil =>
      simp only [evictLoop]
      have hi' : i = c.pile.length := by
        have := List.drop_eq_nil_iff.1 hr; omega
      have hlt : (i : Int) < num := by omega
      refine ⟨i, .refl, ?_⟩
      simp [cleanStep, Loc.at, hi']
      omega
    | cons k rest =>
      have hlt : (i : Int) < num := by omega
      have hil : i < c.pile.length := by
        rcases Nat.lt_or_ge i c.pile.length with h | h
        · exact h
        · rw [List.drop_eq_nil_iff.2 h] at hr; cases hr
      have hget : c.pile[i]? = some k := by
        have := List.getElem?_drop (xs := c.pile) (i := i) (j := 0)
        rw [hr] at this; simpa using this.symm
      have hdrop : c.pile.drop (i + 1) = rest := by
        have : (c.pile.drop i).drop 1 = c.pile.drop (i + 1) := by rw [List.drop_drop]
        rw [← this, hr]; rfl
      have hst : cleanStep env perc res c (l.at 13 ok [] num i) = .next { c with items := c.items.del k } (l.at 13 ok [] num (i + 1)) := by
        simp [cleanStep, Loc.at, hlt, hget]
      have := ih { c with items := c.items.del k } (i + 1) rest hdrop (Nat.succ_le_of_lt hil) (by omega)
      simp only [evictLoop]
      revert this
      generalize hev : evictLoop n (c.items.del k) rest = r
      obtain ⟨items', o⟩ := r
      cases o with
      | some p =>
        intro this
        have e : i + 1 + n = i + (n + 1) := by omega
        rw [e] at this
        exact .head hst this
      | none =>
        rintro ⟨j, h1, h2⟩
        exact ⟨j, .head hst h1, h2⟩

/-- `mClean` access by access. -/
theorem clean_accesses (env : Env) (perc : Int) (res : Nat → Out D) (c : Cache D) (hn : c.items.Nodup) (ok : Bool) (l : Loc D) :
    match (mClean c env perc).2 with
    | some n => ∃ l1, Accesses (cleanStep env perc res) c (l.at 10 ok [] 0 0) (mClean c env perc).1 l1 ∧
        cleanStep env perc res (mClean c env perc).1 l1 = .done (l.ret (res n.toNat))
    | none => ∃ l1, Accesses (cleanStep env perc res) c (l.at 10 ok [] 0 0) (mClean c env perc).1 l1 ∧
        cleanStep env perc res (mClean c env perc).1 l1 = .panic ∧ l1.outs = l.outs := by
  let items := sweep c.expire env c.items
  let num := cleanNum items.length perc
  obtain ⟨j, h1⟩ : ∃ j, Accesses (cleanStep env perc res) c (l.at 10 ok [] 0 0) { c with items := items } (l.at 12 ok [] 0 j) := by
    obtain ⟨j, this⟩ := sweep_accesses env perc res ok 0 l (if c.expire ≠ 0 then c.items else []) c 0
    refine ⟨j, .head (s1 := c) (l1 := l.at 11 ok (if c.expire ≠ 0 then c.items else []) 0 0) rfl ?_⟩
    have heq : delExpired env c.expire (if c.expire ≠ 0 then c.items else []) c.items = items := by
      by_cases hx : c.expire = 0
      · simp [hx, delExpired, items, sweep]
      · simp only [ne_eq, hx, not_false_eq_true, if_true, items, sweep]
        exact delExpired_self env c.expire c.items hn
    rw [heq] at this
    exact this
  have h2 : Accesses (cleanStep env perc res) c (l.at 10 ok [] 0 0) { c with items := items } (l.at 13 ok [] num 0) :=
    .tail h1 rfl
  have hpos : ∀ (c2 : Cache D), 0 < num ∨ Accesses (cleanStep env perc res) c2 (l.at 13 ok [] num 0) c2 (l.at 14 ok [] num 0) := by
    intro c2
    by_cases hx : 0 < num
    · exact Or.inl hx
    · right
      refine .head (s1 := c2) (l1 := l.at 14 ok [] num 0) ?_ .refl
      have : ¬ ((0 : Nat) : Int) < num := by simpa using hx
      simp only [cleanStep, Loc.at, this, if_false]
  -- the eviction loop
  have h3 : match evictLoop num.toNat items c.pile with
      | (items', some _) => Accesses (cleanStep env perc res) c (l.at 10 ok [] 0 0) { c with items := items' } (l.at 14 ok [] num num.toNat)
      | (items', none) => ∃ j, Accesses (cleanStep env perc res) c (l.at 10 ok [] 0 0) { c with items := items' } (l.at 13 ok [] num j) ∧
          cleanStep env perc res { c with items := items' } (l.at 13 ok [] num j) = .panic := by
    rcases hpos { c with items := items } with hp | hz
    · have := evict_accesses env perc res ok num l num.toNat { c with items := items } 0 c.pile (by simp) (by simp) (by omega)
      revert this
      show (match evictLoop num.toNat items c.pile with | (items', some _) => _ | (items', none) => _) → _
      generalize evictLoop num.toNat items c.pile = r
      obtain ⟨items', o⟩ := r
      cases o with
      | some p => intro this; rw [Nat.zero_add] at this; exact h2.trans this
      | none => rintro ⟨j, ha, hb⟩; exact ⟨j, h2.trans ha, hb⟩
    · by_cases hx : 0 < num
      · have := evict_accesses env perc res ok num l num.toNat { c with items := items } 0 c.pile (by simp) (by simp) (by omega)
        revert this
        show (match evictLoop num.toNat items c.pile with | (items', some _) => _ | (items', none) => _) → _
        generalize evictLoop num.toNat items c.pile = r
        obtain ⟨items', o⟩ := r
        cases o with
        | some p => intro this; rw [Nat.zero_add] at this; exact h2.trans this
        | none => rintro ⟨j, ha, hb⟩; exact ⟨j, h2.trans ha, hb⟩
      · have hz' : num.toNat = 0 := by omega
        rw [hz']
        simp only [evictLoop]
        exact h2.trans hz
  have hpile := evictLoop_snd num.toNat items c.pile
  rcases hev : evictLoop num.toNat items c.pile with ⟨items', o⟩
  rw [hev] at h3 hpile
  cases o with
  | some p =>
    dsimp only at hpile h3
    have hp : p = c.pile.drop num.toNat := by
      split at hpile
      · exact Option.some.inj hpile
      · cases hpile
    subst hp
    have hm : mClean c env perc = ({ c with items := items', pile := c.pile.drop num.toNat }, some (num.toNat : Int)) := by
      simp only [mClean]
      rw [show evictLoop (cleanNum (sweep c.expire env c.items).length perc).toNat (sweep c.expire env c.items) c.pile = _ from hev]
    rw [hm]
    refine ⟨l.at 15 ok [] num num.toNat, .tail h3 rfl, ?_⟩
    show _ = Outcome.done (l.ret (res ((num.toNat : Int)).toNat))
    rw [Int.toNat_natCast]
    rfl
  | none =>
    obtain ⟨j, ha, hb⟩ := h3
    have hm : mClean c env perc = ({ c with items := items' }, none) := by
      simp only [mClean]
      rw [show evictLoop (cleanNum (sweep c.expire env c.items).length perc).toNat (sweep c.expire env c.items) c.pile = _ from hev]
    rw [hm]
    exact ⟨_, ha, hb, rfl⟩

theorem Accesses.congr_of {σ L : Type} {f g : σ → L → Outcome σ L} {P : L → Prop} (hfg : ∀ s l, P l → f s l = g s l)
    (hpres : ∀ s l s' l', P l → f s l = .next s' l' → P l') {s : σ} {l : L} {s' : σ} {l' : L} (hP : P l)
    (h : Accesses f s l s' l') : Accesses g s l s' l' ∧ P l' := by
  induction h with
  | refl => exact ⟨.refl, hP⟩
  | tail _ hs ih =>
    have hp := ih.2
    refine ⟨.tail ih.1 ?_, hpres _ _ _ _ hp hs⟩
    rw [← hfg _ _ hp]; exact hs

theorem cleanStep_pc_mono (env : Env) (perc : Int) (res : Nat → Out D) (c : Cache D) (l : Loc D) (c' : Cache D) (l' : Loc D)
    (hpc : 10 ≤ l.pc) (h : cleanStep env perc res c l = .next c' l') : 10 ≤ l'.pc := by
  unfold cleanStep at h
  split at h
  · cases h; simp
  · split at h
    · split at h <;> (cases h; simp; omega)
    · cases h; simp
  · cases h; simp
  · split at h
    · split at h
      · cases h; simp; omega
      · cases h
    · cases h; simp
  · cases h; simp
  · cases h

/-- Every locked method, executed alone, has exactly the effect and the answer of the sequential model. -/
theorem opSection_exec (env : Env) (op : Op D) (hop : Locked op) (c : Cache D) (hn : c.items.Nodup) (l : Loc D) :
    Exec (opSection env op) c l (step c env op).1 (l.ret (step c env op).2) := by
  cases op with
  | set k d =>
    have h4 : Accesses (opStep env (.set k d)) c (Loc.start 0 l) (setRaw c env k d)
        (l.at 4 (c.items.get k).isSome [] 0 0) := by
      refine .tail (.tail (.tail (.tail .refl (rfl : _ = Outcome.next c (l.at 1 (c.items.get k).isSome [] 0 0))) rfl) rfl) ?_
      rfl
    by_cases hcond : 0 < c.maxitems ∧ c.maxitems ≤ (setRaw c env k d).items.length
    · have hset : set c env k d = ((mClean (setRaw c env k d) env 10).1, (mClean (setRaw c env k d) env 10).2.isSome) := by
        rw [set_eq, if_pos hcond]
      have h5 : Accesses (opStep env (.set k d)) c (Loc.start 0 l) (setRaw c env k d)
          (l.at 10 (c.items.get k).isSome [] 0 0) := by
        refine .tail h4 ?_
        show (if 0 < c.maxitems ∧ c.maxitems ≤ (setRaw c env k d).items.length then _ else _) = _
        rw [if_pos hcond]
        rfl
      have hcl := clean_accesses env 10 (fun _ => (.unit : Out D)) (setRaw c env k d) (AMap.nodup_set hn _ _)
        (c.items.get k).isSome l
      have hfg : ∀ (s : Cache D) (l : Loc D), 10 ≤ l.pc →
          cleanStep env 10 (fun _ => (.unit : Out D)) s l = opStep env (.set k d) s l := by
        intro s l hl
        simp only [opStep]
        split <;> first | omega | rfl
      have hcong := fun {s l s' l'} (hP : 10 ≤ (l : Loc D).pc) (h : Accesses _ s l s' l') =>
        Accesses.congr_of (P := fun l : Loc D => 10 ≤ l.pc) hfg
          (fun s l s' l' hp hs => cleanStep_pc_mono env 10 _ s l s' l' hp hs) hP h
      simp only [step, hset]
      cases hres : (mClean (setRaw c env k d) env 10).2 with
      | some n =>
        rw [hres] at hcl
        obtain ⟨l1, ha, hd⟩ := hcl
        obtain ⟨ha', hp'⟩ := hcong (by simp [Loc.at]) ha
        refine Exec.done (l1 := l1) (h5.trans ha') ?_
        show opStep env (.set k d) _ _ = _
        rw [← hfg _ _ hp']
        simpa using hd
      | none =>
        rw [hres] at hcl
        obtain ⟨l1, ha, hd, ho⟩ := hcl
        obtain ⟨ha', hp'⟩ := hcong (by simp [Loc.at]) ha
        have := Exec.panic (sec := opSection env (.set k d)) (l := l) (h5.trans ha') (by
          show opStep env (.set k d) _ _ = _
          rw [← hfg _ _ hp']; exact hd)
        simpa [opSection, Loc.ret, Loc.idle, ho] using this
    · have hset : set c env k d = (setRaw c env k d, true) := by rw [set_eq, if_neg hcond]
      simp only [step, hset, if_true]
      refine Exec.done h4 ?_
      show (if 0 < c.maxitems ∧ c.maxitems ≤ (setRaw c env k d).items.length then _ else _) = _
      rw [if_neg hcond]
      rfl
  | setTTL k t =>
    simp only [step]
    cases hc : c.items.get k with
    | none =>
      have : setTTL c k t = c := by simp [setTTL, hc]
      rw [this]
      refine Exec.done .refl ?_
      simp [opSection, opStep, hc, Loc.ret, Loc.idle, Loc.start]
    | some e =>
      have : setTTL c k t = { c with items := c.items.set k { e with ttl := t } } := by simp [setTTL, hc]
      rw [this]
      refine Exec.done (l1 := l.at 1 false [] 0 0) (.tail .refl ?_) ?_
      · simp [opSection, opStep, hc, Loc.start, Loc.at]
      · simp [opSection, opStep, AMap.get_set, Loc.at, Loc.ret, Loc.idle]
  | get k => exact absurd hop id
  | del k =>
    refine Exec.done (l1 := l.at 2 false [] 0 0) (.tail (.tail .refl (rfl : _ = Outcome.next _ (l.at 1 false [] 0 0))) rfl) ?_
    rfl
  | count => exact Exec.done .refl rfl
  | clean p =>
    have hcl := clean_accesses env p (fun i => (.num i : Out D)) c hn false l
    simp only [step, clean]
    cases hres : (mClean c env p).2 with
    | some n =>
      rw [hres] at hcl
      obtain ⟨l1, ha, hd⟩ := hcl
      have hn0 : 0 ≤ n := by
        rw [mClean_snd] at hres
        dsimp only at hres
        split at hres
        · cases hres; omega
        · cases hres
      refine Exec.done (l1 := l1) ha ?_
      have : ((n.toNat : Nat) : Int) = n := by omega
      rw [this] at hd
      exact hd
    | none =>
      rw [hres] at hcl
      obtain ⟨l1, ha, hd, ho⟩ := hcl
      have := Exec.panic (sec := opSection env (.clean p)) (l := l) ha hd
      simpa [opSection, Loc.ret, Loc.idle, ho] using this
  | verify => exact absurd hop id
  | flush =>
    refine Exec.done (l1 := l.at 1 false [] 0 0) (.tail .refl rfl) ?_
    rfl
  | setMaxitems m => exact absurd hop id
  | setExpire e => exact absurd hop id
  | setValidator b => exact absurd hop id

end Xcore.Cache
