import Verif.Spec.Dataset
import Verif.Base.StrLemmas

namespace Xcore.Dataset

/-! ## Wrappers -/

theorem targetN_wraps {n : Nat} {h : Heap} {a t : Addr} (e : targetN n h a = some t) : Wraps h a t := by
  induction n generalizing a with
  | zero => cases e
  | succ n ih =>
    simp only [targetN] at e
    split at e
    · rename_i m hm; cases e; exact .plain hm
    · rename_i b hb; exact .wrapper hb (ih e)
    · cases e

theorem targetN_of_wraps {h : Heap} (wf : WF h) {a t : Addr} (w : Wraps h a t) : ∀ n, a < n → targetN n h a = some t := by
  induction w with
  | plain hm =>
    intro n hn
    cases n with
    | zero => omega
    | succ n => simp [targetN, hm]
  | @wrapper a b t hb _ ih =>
    intro n hn
    cases n with
    | zero => omega
    | succ n =>
      simp only [targetN, hb]
      have := (wf.wrapper a b hb).1
      exact ih n (by omega)

theorem target_iff {h : Heap} (wf : WF h) {a t : Addr} : target h a = some t ↔ Wraps h a t :=
  ⟨targetN_wraps, fun w => targetN_of_wraps wf w _ (Nat.lt_succ_self a)⟩

theorem wraps_ds {h : Heap} {a t : Addr} (w : Wraps h a t) : ∃ m, h[t]? = some (.ds m) := by
  induction w with
  | plain hm => exact ⟨_, hm⟩
  | wrapper _ _ ih => exact ih

theorem target_ds {h : Heap} {a t : Addr} (e : target h a = some t) : ∃ m, h[t]? = some (.ds m) := wraps_ds (targetN_wraps e)

theorem wraps_unique {h : Heap} {a t t' : Addr} (w : Wraps h a t) (w' : Wraps h a t') : t = t' := by
  induction w with
  | plain hm =>
    cases w' with
    | plain => rfl
    | wrapper hb => rw [hm] at hb; cases hb
  | wrapper hb _ ih =>
    cases w' with
    | plain hm => rw [hm] at hb; cases hb
    | wrapper hb' w' => rw [hb] at hb'; cases hb'; exact ih w'

theorem wraps_isDataset {h : Heap} {a t : Addr} (w : Wraps h a t) : IsDataset h a := by
  cases w with
  | plain hm => exact Or.inl ⟨_, hm⟩
  | wrapper hb => exact Or.inr ⟨_, hb⟩

/-- Without nil wrappers every dataset has a plain dataset behind it. -/
theorem wraps_exists {h : Heap} (wf : WF h) (nn : Wrapped h) : ∀ a, IsDataset h a → ∃ t, Wraps h a t := by
  intro a
  induction a using Nat.strongRecOn with
  | _ a ih =>
    rintro (⟨m, hm⟩ | ⟨i, hi⟩)
    · exact ⟨a, .plain hm⟩
    · cases i with
      | none => exact absurd hi (nn a)
      | some b =>
        obtain ⟨h1, h2⟩ := wf.wrapper a b hi
        obtain ⟨t, ht⟩ := ih b h1 h2
        exact ⟨t, .wrapper hi ht⟩

theorem entries_of {h : Heap} {t : Addr} {m : AMap Val} (hm : h[t]? = some (.ds m)) : entries h t = m := by simp [entries, hm]

theorem entry_iff {h : Heap} {a t : Addr} {k : Str} {v : Val} (w : Wraps h a t) : Entry h a k v ↔ (entries h t).get k = some v := by
  constructor
  · rintro ⟨t', m, w', hm, hg⟩
    rw [wraps_unique w w', entries_of hm]; exact hg
  · intro hg
    obtain ⟨m, hm⟩ := wraps_ds w
    rw [entries_of hm] at hg
    exact ⟨t, m, w, hm, hg⟩

/-! ## Type assertions -/

theorem asDataset_some {h : Heap} {v : Val} {a : Addr} : asDataset h v = some a ↔ v = .ptr a ∧ IsDataset h a := by
  cases v with
  | ptr b =>
    simp only [asDataset]
    constructor
    · intro e
      split at e <;> simp_all [IsDataset]
    · rintro ⟨e, hd⟩
      cases e
      rcases hd with ⟨m, hm⟩ | ⟨i, hi⟩
      · simp [hm]
      · simp [hi]
  | _ => simp [asDataset]

theorem asDataset_none {h : Heap} {v : Val} : asDataset h v = none ↔ ∀ a, v = .ptr a → ¬ IsDataset h a := by
  constructor
  · rintro e a rfl hd
    rw [asDataset_some.2 ⟨rfl, hd⟩] at e; cases e
  · intro hn
    cases e : asDataset h v with
    | none => rfl
    | some a => exact absurd (asDataset_some.1 e).2 (hn a (asDataset_some.1 e).1)

theorem elems_of {h : Heap} {c : Addr} {l : List (Option Addr)} (hc : IsCollection h c l) : elems h c = l := by
  rcases hc with hc | hc <;> simp [elems, hc]

theorem asCollection_some {h : Heap} {v : Val} {c : Addr} : asCollection h v = some c ↔ v = .ptr c ∧ IsCollection h c (elems h c) := by
  cases v with
  | ptr b =>
    simp only [asCollection]
    constructor
    · intro e
      split at e <;> simp_all [IsCollection, elems]
      all_goals (subst e; simp_all)
    · rintro ⟨e, hd⟩
      cases e
      rcases hd with hm | hm <;> simp [hm]
  | _ => simp [asCollection]

theorem asCollection_none {h : Heap} {v : Val} : asCollection h v = none ↔ ∀ c, v = .ptr c → ∀ l, ¬ IsCollection h c l := by
  constructor
  · rintro e c rfl l hd
    rw [asCollection_some.2 ⟨rfl, by rw [elems_of hd]; exact hd⟩] at e; cases e
  · intro hn
    cases e : asCollection h v with
    | none => rfl
    | some a => exact absurd (asCollection_some.1 e).2 (hn a (asCollection_some.1 e).1 _)

theorem isDataset_not_collection {h : Heap} {a : Addr} {l : List (Option Addr)} (hd : IsDataset h a) : ¬ IsCollection h a l := by
  rintro (hc | hc) <;> rcases hd with ⟨m, hm⟩ | ⟨m, hm⟩ <;> rw [hc] at hm <;> cases hm

theorem isCollection_elems {h : Heap} {a : Addr} {l l' : List (Option Addr)} (hc : IsCollection h a l) (hc' : IsCollection h a l') : l = l' := by
  rcases hc with hc | hc <;> rcases hc' with hc' | hc' <;> rw [hc] at hc' <;> cases hc' <;> rfl

theorem plain_iff {h : Heap} {v : Val} : Plain h v ↔ asDataset h v = none ∧ asCollection h v = none := by
  rw [asDataset_none, asCollection_none]
  constructor
  · intro hp; exact ⟨fun a e => (hp a e).1, fun a e => (hp a e).2⟩
  · rintro ⟨h1, h2⟩ a e; exact ⟨h1 a e, h2 a e⟩

theorem colGet_some {l : List (Option Addr)} {i : Int} {e : Option Addr} :
    colGet l i = some e ↔ ∃ n : Nat, i = n ∧ l[n]? = some e := by
  unfold colGet
  constructor
  · intro hh
    split at hh
    · cases hh
    · rename_i hn
      exact ⟨i.toNat, by omega, hh⟩
  · rintro ⟨n, rfl, hn⟩
    have : n < l.length := by
      rcases Nat.lt_or_ge n l.length with h' | h'
      · exact h'
      · rw [List.getElem?_eq_none h'] at hn; cases hn
    rw [if_neg (by omega)]
    simpa using hn

/-! ## Get -/

/-- The recursion of `Get` as it stands in the source: the remaining pieces are joined and split again. -/
theorem get_go (h : Heap) (a : Addr) (key : Str) :
    get h a key =
      match target h a with
      | none => .panic
      | some t =>
        let d := entries h t
        let xid := split 62 key
        match xid with
        | s :: s2 :: rest =>
          match d.get s with
          | none => .ok none
          | some v => match asDataset h v with
            | some b => get h b (join b!">" (s2 :: rest))
            | none => match asCollection h v with
              | some c => match atoi s2 with
                | none => .ok none
                | some i => match colGet (elems h c) i with
                  | some (some e) => match rest with
                    | [] => .ok (some (.ptr e))
                    | rest => get h e (join b!">" rest)
                  | _ => .ok none
              | none => .ok (d.get key)
        | _ => .ok (d.get key) := by
  unfold get
  cases hx : split 62 key with
  | nil => exact absurd hx (split_ne_nil _ _)
  | cons s tl =>
    cases tl with
    | nil =>
      have : key = s := by have := join_split 62 key; rw [hx] at this; simpa [join] using this.symm
      subst this
      simp only [getSegs] <;> cases target h a <;> rfl
    | cons s2 rest =>
      have hk : join b!">" (s :: s2 :: rest) = key := by rw [← hx]; exact join_split 62 key
      have hm : ∀ p ∈ s :: s2 :: rest, (62 : UInt8) ∉ p := by intro p hp; rw [← hx] at hp; exact mem_split_not_sep hp
      have h1 : split 62 (join b!">" (s2 :: rest)) = s2 :: rest := split_join (by simp) (fun p hp => hm p (by simp_all))
      simp only [getSegs, hk]
      cases target h a with
      | none => rfl
      | some t =>
        simp only
        cases (entries h t).get s with
        | none => rfl
        | some v =>
          simp only
          cases asDataset h v with
          | some b => simp only [h1]
          | none =>
            simp only
            cases asCollection h v with
            | none => rfl
            | some c =>
              simp only
              cases atoi s2 with
              | none => rfl
              | some i =>
                simp only
                cases colGet (elems h c) i with
                | none => rfl
                | some e =>
                  cases e with
                  | none => rfl
                  | some e =>
                    cases rest with
                    | nil => rfl
                    | cons r rest =>
                      have h2 : split 62 (join b!">" (r :: rest)) = r :: rest := split_join (by simp) (fun p hp => hm p (by simp_all))
                      simp only [h2]

theorem getSegs_leads {h : Heap} {a : Addr} {segs : List Str} {v : Val} (e : getSegs h a segs = .ok (some v)) :
    Leads h a segs v := by
  induction hn : segs.length using Nat.strongRecOn generalizing a segs with
  | _ n ih =>
    match segs, e with
    | [], e => simp [getSegs] at e
    | [s], e =>
      simp only [getSegs] at e
      split at e
      · cases e
      · rename_i t ht
        simp only [Res.ok.injEq] at e
        exact .entry ((entry_iff (targetN_wraps ht)).2 e)
    | s :: s2 :: rest, e =>
      simp only [getSegs] at e
      split at e
      · cases e
      · rename_i t ht
        have w := targetN_wraps ht
        split at e
        · cases e
        · rename_i w0 hw0
          have he := (entry_iff w).2 hw0
          split at e
          · rename_i b hb
            obtain ⟨rfl, hd⟩ := asDataset_some.1 hb
            exact .dataset he hd (ih _ (by simp [← hn]) e rfl)
          · rename_i hnd
            split at e
            · rename_i c hc
              obtain ⟨rfl, hcc⟩ := asCollection_some.1 hc
              split at e
              · cases e
              · rename_i i hi
                split at e
                · rename_i el hel
                  obtain ⟨k, rfl, hk⟩ := colGet_some.1 hel
                  cases rest with
                  | nil => simp only [Res.ok.injEq, Option.some.injEq] at e; subst e; exact .element he hcc hi hk
                  | cons r rest => exact .through he hcc hi hk (ih _ (by simp [← hn]) e rfl)
                · cases e
            · rename_i hnc
              simp only [Res.ok.injEq] at e
              exact .literal he (plain_iff.2 ⟨hnd, hnc⟩) ((entry_iff w).2 e)

theorem entry_target {h : Heap} (wf : WF h) {a : Addr} {k : Str} {v : Val} (e : Entry h a k v) :
    ∃ t, target h a = some t ∧ Wraps h a t ∧ (entries h t).get k = some v := by
  obtain ⟨t, m, w, hm, hg⟩ := e
  exact ⟨t, (target_iff wf).2 w, w, by rw [entries_of hm]; exact hg⟩

theorem leads_getSegs {h : Heap} (wf : WF h) {a : Addr} {segs : List Str} {v : Val} (e : Leads h a segs v) :
    getSegs h a segs = .ok (some v) := by
  induction e with
  | entry he =>
    obtain ⟨t, ht, w, hg⟩ := entry_target wf he
    simp [getSegs, ht, hg]
  | dataset he hd _ ih =>
    obtain ⟨t, ht, w, hg⟩ := entry_target wf he
    simp only [getSegs, ht, hg, asDataset_some.2 ⟨rfl, hd⟩, ih]
  | element he hc hi hl =>
    obtain ⟨t, ht, w, hg⟩ := entry_target wf he
    have hn := asDataset_none.2 (fun a (e : Val.ptr _ = .ptr a) => by cases e; exact fun hd => isDataset_not_collection hd hc)
    have hcc := asCollection_some.2 ⟨rfl, by rw [elems_of hc]; exact hc⟩
    simp only [getSegs, ht, hg, hn, hcc, hi, elems_of hc, colGet_some.2 ⟨_, rfl, hl⟩]
  | through he hc hi hl _ ih =>
    obtain ⟨t, ht, w, hg⟩ := entry_target wf he
    have hn := asDataset_none.2 (fun a (e : Val.ptr _ = .ptr a) => by cases e; exact fun hd => isDataset_not_collection hd hc)
    have hcc := asCollection_some.2 ⟨rfl, by rw [elems_of hc]; exact hc⟩
    simp only [getSegs, ht, hg, hn, hcc, hi, elems_of hc, colGet_some.2 ⟨_, rfl, hl⟩, ih]
  | literal he hp hv =>
    obtain ⟨t, ht, w, hg⟩ := entry_target wf he
    have := (entry_iff w).1 hv
    simp only [getSegs, ht, hg, (plain_iff.1 hp).1, (plain_iff.1 hp).2, this]

/-- No panic when there is no nil wrapper. -/
theorem getSegs_no_panic {h : Heap} (wf : WF h) (nn : Wrapped h) {a : Addr} (hd : IsDataset h a) (segs : List Str) :
    ∃ r, getSegs h a segs = .ok r := by
  induction hn : segs.length using Nat.strongRecOn generalizing a segs with
  | _ n ih =>
    obtain ⟨t, ht⟩ := wraps_exists wf nn a hd
    have ht' := (target_iff wf).2 ht
    match segs with
    | [] => exact ⟨none, rfl⟩
    | [s] => simp [getSegs, ht']
    | s :: s2 :: rest =>
      simp only [getSegs, ht']
      cases hg : (entries h t).get s with
      | none => exact ⟨_, rfl⟩
      | some v =>
        simp only
        cases hb : asDataset h v with
        | some b => exact ih _ (by simp [← hn]) (asDataset_some.1 hb).2 _ rfl
        | none =>
          simp only
          cases hc : asCollection h v with
          | none => exact ⟨_, rfl⟩
          | some c =>
            simp only
            cases atoi s2 with
            | none => exact ⟨_, rfl⟩
            | some i =>
              simp only
              cases he : colGet (elems h c) i with
              | none => exact ⟨_, rfl⟩
              | some e =>
                cases e with
                | none => exact ⟨_, rfl⟩
                | some e =>
                  obtain ⟨k, rfl, hk⟩ := colGet_some.1 he
                  have := wf.elem c _ e (asCollection_some.1 hc).2 (List.mem_of_getElem? hk)
                  cases rest with
                  | nil => exact ⟨_, rfl⟩
                  | cons r rest => exact ih _ (by simp [← hn]) this _ rfl

theorem navigates_leads {h : Heap} {a : Addr} {segs : List Str} {v : Val} (e : Navigates h a segs v) : Leads h a segs v := by
  induction e with
  | entry he => exact .entry he
  | dataset he hd _ ih => exact .dataset he hd ih
  | element he hc hi hl => exact .element he hc hi hl
  | through he hc hi hl _ ih => exact .through he hc hi hl ih

theorem sep_mem_join (s s2 : Str) (rest : List Str) : (62 : UInt8) ∈ join b!">" (s :: s2 :: rest) := by
  simp [join]

theorem leads_navigates {h : Heap} (np : NoPathKeys h) {a : Addr} {segs : List Str} {v : Val} (e : Leads h a segs v) : Navigates h a segs v := by
  induction e with
  | entry he => exact .entry he
  | dataset he hd _ ih => exact .dataset he hd ih
  | element he hc hi hl => exact .element he hc hi hl
  | through he hc hi hl _ ih => exact .through he hc hi hl ih
  | literal he hp hv =>
    obtain ⟨t, m, _, hm, hg⟩ := hv
    exact absurd (sep_mem_join _ _ _) (np t m _ _ hm hg)

/-! ## Set and Del -/

theorem get_simple {h : Heap} {a : Addr} {k : Str} (hk : 62 ∉ k) :
    get h a k = match target h a with | none => .panic | some t => .ok ((entries h t).get k) := by
  unfold get; rw [split_of_not_mem hk]; rfl

/-- Replacing the entries of a plain dataset keeps all wrappers. -/
theorem targetN_set {h : Heap} {t : Addr} {m m' : AMap Val} (hm : h[t]? = some (.ds m)) (n : Nat) (b : Addr) :
    targetN n (h.set t (.ds m')) b = targetN n h b := by
  have hlt : t < h.length := by
    rcases Nat.lt_or_ge t h.length with h' | h'
    · exact h'
    · rw [List.getElem?_eq_none h'] at hm; cases hm
  induction n generalizing b with
  | zero => rfl
  | succ n ih =>
    simp only [targetN, List.getElem?_set]
    by_cases e : t = b
    · subst e; rw [if_pos rfl, if_pos hlt, hm]
    · simp only [e, if_false]
      split <;> simp_all

theorem target_set {h : Heap} {t : Addr} {m m' : AMap Val} (hm : h[t]? = some (.ds m)) (b : Addr) :
    target (h.set t (.ds m')) b = target h b := targetN_set hm _ b

theorem entries_set {h : Heap} {t : Addr} {m m' : AMap Val} (hm : h[t]? = some (.ds m)) (b : Addr) :
    entries (h.set t (.ds m')) b = if b = t then m' else entries h b := by
  have hlt : t < h.length := by
    rcases Nat.lt_or_ge t h.length with h' | h'
    · exact h'
    · rw [List.getElem?_eq_none h'] at hm; cases hm
  simp only [entries, List.getElem?_set]
  by_cases e : t = b
  · subst e; simp [hlt]
  · have : b ≠ t := fun h => e h.symm
    simp [e, this]

theorem asDataset_set {h : Heap} {t : Addr} {m m' : AMap Val} (hm : h[t]? = some (.ds m)) (v : Val) :
    asDataset (h.set t (.ds m')) v = asDataset h v := by
  cases v with
  | ptr b =>
    simp only [asDataset, List.getElem?_set]
    by_cases e : t = b
    · subst e
      have hlt : t < h.length := by
        rcases Nat.lt_or_ge t h.length with h' | h'
        · exact h'
        · rw [List.getElem?_eq_none h'] at hm; cases hm
      rw [if_pos rfl, if_pos hlt, hm]
    · rw [if_neg e]
  | _ => rfl

theorem asCollection_set {h : Heap} {t : Addr} {m m' : AMap Val} (hm : h[t]? = some (.ds m)) (v : Val) :
    asCollection (h.set t (.ds m')) v = asCollection h v := by
  cases v with
  | ptr b =>
    simp only [asCollection, List.getElem?_set]
    by_cases e : t = b
    · subst e
      have hlt : t < h.length := by
        rcases Nat.lt_or_ge t h.length with h' | h'
        · exact h'
        · rw [List.getElem?_eq_none h'] at hm; cases hm
      rw [if_pos rfl, if_pos hlt, hm]
    · rw [if_neg e]
  | _ => rfl

theorem set_eq {h h' : Heap} {a : Addr} {key : Str} {v : Val} (e : set h a key v = .ok h') :
    ∃ t m, target h a = some t ∧ h[t]? = some (.ds m) ∧ h' = h.set t (.ds (m.set key v)) := by
  unfold set at e
  split at e
  · cases e
  · rename_i t ht
    obtain ⟨m, hm⟩ := target_ds ht
    simp only [Res.ok.injEq] at e
    exact ⟨t, m, ht, hm, by rw [← e, entries_of hm]⟩

theorem del_eq {h h' : Heap} {a : Addr} {key : Str} (e : del h a key = .ok h') :
    ∃ t m, target h a = some t ∧ h[t]? = some (.ds m) ∧ h' = h.set t (.ds (m.del key)) := by
  unfold del at e
  split at e
  · cases e
  · rename_i t ht
    obtain ⟨m, hm⟩ := target_ds ht
    simp only [Res.ok.injEq] at e
    exact ⟨t, m, ht, hm, by rw [← e, entries_of hm]⟩

/-! ## Keys with a path in them -/

theorem elems_set {h : Heap} {t : Addr} {m m' : AMap Val} (hm : h[t]? = some (.ds m)) (c : Addr) :
    elems (h.set t (.ds m')) c = elems h c := by
  have hlt : t < h.length := (List.getElem?_eq_some_iff.1 hm).1
  simp only [elems, List.getElem?_set]
  by_cases e : t = c
  · subst e; rw [if_pos rfl, if_pos hlt, hm]
  · simp [e]

theorem join_length_cons (s s2 : Str) (rest : List Str) : (join b!">" (s :: s2 :: rest)).length = s.length + 1 + (join b!">" (s2 :: rest)).length := by
  simp [join]; omega

/-- A new entry is not seen by a lookup whose remaining path is shorter than its key. -/
theorem getSegs_set_short {h : Heap} {t : Addr} {m : AMap Val} {key : Str} {v : Val} (hm : h[t]? = some (.ds m)) :
    ∀ (n : Nat) (segs : List Str) (b : Addr), segs.length ≤ n → (join b!">" segs).length < key.length →
      getSegs (h.set t (.ds (m.set key v))) b segs = getSegs h b segs := by
  have hne : ∀ x : Str, x.length < key.length → ∀ t', (entries (h.set t (.ds (m.set key v))) t').get x = (entries h t').get x := by
    intro x hx t'
    rw [entries_set hm]
    split
    · rename_i e; subst e
      rw [AMap.get_set_ne _ _ (by rintro rfl; omega), entries_of hm]
    · rfl
  intro n
  induction n with
  | zero =>
    intro segs b hl _
    cases segs with
    | nil => rfl
    | cons _ _ => simp at hl
  | succ n ih =>
    intro segs b hl hlen
    match segs with
    | [] => rfl
    | [k] =>
      simp only [getSegs, target_set hm]
      split
      · rfl
      · rw [hne k (by simpa [join] using hlen)]
    | s :: s2 :: rest =>
      have h2 := join_length_cons s s2 rest
      simp only [getSegs, target_set hm]
      split
      · rfl
      · rename_i t' _
        rw [hne s (by omega)]
        split
        · rfl
        · rename_i w _
          rw [asDataset_set hm, asCollection_set hm]
          split
          · exact ih _ _ (by simpa using hl) (by omega)
          · split
            · split
              · rfl
              · rw [elems_set hm]
                split
                · split
                  · rfl
                  · rename_i r rest'
                    have h3 := join_length_cons s2 r rest'
                    exact ih _ _ (by simp only [List.length_cons] at hl ⊢; omega) (by omega)
                · rfl
            · rw [hne _ hlen]

end Xcore.Dataset
