import Verif.Base.Decimal
import Verif.Proof.DatasetStep
import Verif.Proof.DatasetConv

/-!
# Properties C15–C19, C25, C26, C29: datasets and collections

`WF h` holds of every memory a program can build (`C15_reachable_heaps_are_well_formed`).
-/

namespace Xcore.Dataset

/-- Every memory a program can build is well formed. -/
theorem C15_reachable_heaps_are_well_formed {h : Heap} (r : Reachable h) : WF h := r.wf

/-! ## C15 -/

/-- **C15** After `Set(key, v)` with a key without `>`, `Get(key)` on the dataset answers `v`; every other key without `>`, and every other
dataset, answers as before. `Wraps h b t` says that `b` is the same dataset, seen through a wrapper. -/
theorem C15_get_after_set {h h' : Heap} {a : Addr} {key : Str} {v : Val} (hk : 62 ∉ key) (e : set h a key v = .ok h') :
    get h' a key = .ok (some v) ∧
    (∀ b k, 62 ∉ k → (k ≠ key ∨ ∀ t, ¬ (Wraps h a t ∧ Wraps h b t)) → get h' b k = get h b k) := by
  obtain ⟨t, m, ht, hm, rfl⟩ := set_eq e
  constructor
  · rw [get_simple hk, target_set hm, ht]
    simp only [entries_set hm, if_true]
    rw [AMap.get_set_self]
  · intro b k hk' hor
    rw [get_simple hk', get_simple hk', target_set hm]
    cases hb : target h b with
    | none => rfl
    | some t' =>
      simp only [entries_set hm]
      by_cases ett : t' = t
      · subst ett
        rw [if_pos rfl]
        rcases hor with hne | hno
        · rw [AMap.get_set_ne _ _ hne, entries_of hm]
        · exact absurd ⟨targetN_wraps ht, targetN_wraps hb⟩ (hno t')
      · rw [if_neg ett]

/-- **C15** After `Del(key)` with a key without `>`, `Get(key)` reports absence; every other key without `>`, and every other dataset,
answers as before. -/
theorem C15_get_after_del {h h' : Heap} {a : Addr} {key : Str} (hk : 62 ∉ key) (e : del h a key = .ok h') :
    get h' a key = .ok none ∧
    (∀ b k, 62 ∉ k → (k ≠ key ∨ ∀ t, ¬ (Wraps h a t ∧ Wraps h b t)) → get h' b k = get h b k) := by
  obtain ⟨t, m, ht, hm, rfl⟩ := del_eq e
  constructor
  · rw [get_simple hk, target_set hm, ht]
    simp only [entries_set hm, if_true]
    rw [AMap.get_del_self]
  · intro b k hk' hor
    rw [get_simple hk', get_simple hk', target_set hm]
    cases hb : target h b with
    | none => rfl
    | some t' =>
      simp only [entries_set hm]
      by_cases ett : t' = t
      · subst ett
        rw [if_pos rfl]
        rcases hor with hne | hno
        · rw [AMap.get_del_ne _ hne, entries_of hm]
        · exact absurd ⟨targetN_wraps ht, targetN_wraps hb⟩ (hno t')
      · rw [if_neg ett]

/-- **C15** Set and Del panic exactly on a wrapper around nothing; collections, language tables and slices are not changed by them. -/
theorem C15_set_del_total {h : Heap} (wf : WF h) (a : Addr) (key : Str) (v : Val) :
    ((∃ h', set h a key v = .ok h') ↔ ∃ t, Wraps h a t) ∧ ((∃ h', del h a key = .ok h') ↔ ∃ t, Wraps h a t) ∧
    (set h a key v = .panic ↔ ¬ ∃ t, Wraps h a t) ∧ (del h a key = .panic ↔ ¬ ∃ t, Wraps h a t) ∧
    (∀ h', set h a key v = .ok h' ∨ del h a key = .ok h' → ∀ (b : Addr) (o : Obj), h[b]? = some o → (∀ m, o ≠ .ds m) → h'[b]? = some o) := by
  have ht : (∃ t, Wraps h a t) ↔ ∃ t, target h a = some t :=
    ⟨fun ⟨t, w⟩ => ⟨t, (target_iff wf).2 w⟩, fun ⟨t, w⟩ => ⟨t, (target_iff wf).1 w⟩⟩
  refine ⟨?_, ?_, ?_, ?_, ?_⟩
  · rw [ht]; unfold set; cases target h a <;> simp
  · rw [ht]; unfold del; cases target h a <;> simp
  · rw [ht]; unfold set; cases target h a <;> simp
  · rw [ht]; unfold del; cases target h a <;> simp
  · intro h' hor b o hb ho
    obtain ⟨t, m, m', _, hm, rfl⟩ : ∃ t m m', target h a = some t ∧ h[t]? = some (.ds m) ∧ h' = h.set t (.ds m') := by
      rcases hor with e | e
      · obtain ⟨t, m, h1, h2, h3⟩ := set_eq e; exact ⟨t, m, _, h1, h2, h3⟩
      · obtain ⟨t, m, h1, h2, h3⟩ := del_eq e; exact ⟨t, m, _, h1, h2, h3⟩
    rw [List.getElem?_set, if_neg]
    · exact hb
    · rintro rfl; rw [hm] at hb; cases hb; exact ho m rfl

/-- A memory used in the examples: 0 is a dataset with a number, a sub-dataset 1, a collection 3 with the element 2; 4 wraps 0. -/
def sample : Heap :=
  [.ds [(b!"n", .int .int 7), (b!"d", .ptr 1), (b!"c", .ptr 3), (b!"n>x", .str b!"lit")],
   .ds [(b!"s", .str b!"v")],
   .ds [(b!"k", .bool true)],
   .col [some 2],
   .dsTS (some 0)]

theorem sample_wf : WF sample := by
  rw [wf_iff]
  intro a o ho
  have : a < 5 := lt_of_getElem? ho
  have hd : ∀ b : Addr, b = 0 ∨ b = 1 ∨ b = 2 → IsDataset sample b := by
    rintro b (rfl | rfl | rfl) <;> exact Or.inl ⟨_, rfl⟩
  match a, this with
  | 0, _ => cases ho; exact ⟨by decide, by intro k v hb; simp at hb; rcases hb with h | h | h | h <;> rw [h.2] <;> simp [Valid, sample, OfKind]⟩
  | 1, _ => cases ho; exact ⟨by decide, by intro k v hb; simp at hb; rw [hb.2]; trivial⟩
  | 2, _ => cases ho; exact ⟨by decide, by intro k v hb; simp at hb; rw [hb.2]; trivial⟩
  | 3, _ => cases ho; intro b hb; simp at hb; exact hd b (by omega)
  | 4, _ => cases ho; exact ⟨by omega, hd 0 (Or.inl rfl)⟩

/-- Non-vacuity: Set through the wrapper, read through both; the other dataset is not affected. -/
example : ∃ h', set sample 4 b!"n" (.str b!"new") = .ok h' ∧ get h' 0 b!"n" = .ok (some (.str b!"new")) ∧
    get h' 1 b!"s" = get sample 1 b!"s" ∧ get h' 0 b!"d>s" = .ok (some (.str b!"v")) := ⟨_, rfl, by decide⟩

/-! ## C16 -/

/-- **C16** `Get(path)` answers the value at the end of the path. -/
theorem C16_get_follows_path {h : Heap} (wf : WF h) {a : Addr} {key : Str} {v : Val} (n : Navigates h a (split 62 key) v) :
    get h a key = .ok (some v) := leads_getSegs wf (navigates_leads n)

/-- **C16** If no dataset has a literal key with a `>` in it, `Get` answers a value only if the path leads to it, and reports absence
exactly when the path leads nowhere; it does not panic unless there is a wrapper around nothing. -/
theorem C16_get_only_follows_path {h : Heap} (wf : WF h) (np : NoPathKeys h) (a : Addr) (key : Str) :
    (∀ v, get h a key = .ok (some v) ↔ Navigates h a (split 62 key) v) ∧
    (get h a key = .ok none → ¬ ∃ v, Navigates h a (split 62 key) v) ∧
    (Wrapped h → IsDataset h a → (¬ ∃ v, Navigates h a (split 62 key) v) → get h a key = .ok none) := by
  refine ⟨fun v => ⟨fun e => leads_navigates np (getSegs_leads e), C16_get_follows_path wf⟩, ?_, ?_⟩
  · rintro e ⟨v, n⟩
    rw [C16_get_follows_path wf n] at e; cases e
  · intro nn hd hno
    obtain ⟨r, hr⟩ := getSegs_no_panic wf nn hd (split 62 key)
    cases r with
    | none => exact hr
    | some v => exact absurd ⟨v, leads_navigates np (getSegs_leads hr)⟩ hno

/-- **C16** In general: when the walk meets a plain value before the end of the path, the rest of the path is tried as a literal key of the
dataset reached; otherwise as above. -/
theorem C16_get_in_general {h : Heap} (wf : WF h) (a : Addr) (key : Str) (v : Val) :
    get h a key = .ok (some v) ↔ Leads h a (split 62 key) v := ⟨getSegs_leads, leads_getSegs wf⟩

/-- **C16** The answer does not depend on how the path was split: a path through a sub-dataset is the same as a query on the
sub-dataset. -/
theorem C16_get_composes {h : Heap} {a b : Addr} {k rest : Str} (hk : 62 ∉ k) (hd : getDataset h a k = .ok (some b)) :
    get h a (k ++ b!">" ++ rest) = get h b rest := by
  have hs : split 62 (k ++ b!">" ++ rest) = k :: split 62 rest := by
    rw [List.append_assoc]; exact split_append_sep hk rest
  have hg : get h a k = .ok (some (.ptr b)) ∧ IsDataset h b := by
    unfold getDataset at hd
    cases e : get h a k with
    | ok r =>
      rw [e] at hd
      simp only [Res.map, Res.ok.injEq] at hd
      cases r with
      | none => cases hd
      | some v => obtain ⟨rfl, h2⟩ := asDataset_some.1 hd; exact ⟨rfl, h2⟩
    | panic => rw [e] at hd; cases hd
    | diverge => rw [e] at hd; cases hd
  rw [get_simple hk] at hg
  cases ht : target h a with
  | none => rw [ht] at hg; cases hg.1
  | some t =>
    rw [ht] at hg
    simp only [Res.ok.injEq] at hg
    rw [get_go, ht, hs]
    cases hx : split 62 rest with
    | nil => exact absurd hx (split_ne_nil _ _)
    | cons s2 tl =>
      simp only [hg.1, asDataset_some.2 ⟨rfl, hg.2⟩]
      rw [← hx, show join b!">" (split 62 rest) = rest from join_split 62 rest]

/-- Non-vacuity: paths through a dataset and a collection of the sample, seen through the wrapper. -/
example : get sample 4 b!"d>s" = .ok (some (.str b!"v")) ∧ get sample 4 b!"c>0>k" = .ok (some (.bool true)) ∧
    get sample 4 b!"c>+00" = .ok (some (.ptr 2)) ∧ get sample 0 b!"c>1" = .ok none ∧ get sample 0 b!"c>x>k" = .ok none ∧
    get sample 0 b!"n>x" = .ok (some (.str b!"lit")) ∧ get sample 0 b!"d>n>x" = .ok none := by decide

example : Navigates sample 4 (split 62 b!"c>0>k") (.bool true) := by
  refine .through (c := 3) (l := [some 2]) (i := 0) (e := 2) ⟨0, _, .wrapper (b := 0) rfl (.plain rfl), rfl, by decide⟩ (Or.inl rfl) (by decide) rfl (.entry ⟨2, _, .plain rfl, rfl, by decide⟩)

/-- **C16** Which segments are indices: an optional sign and decimal digits, denoting a 64-bit integer. -/
theorem C16_index_notation (s : Str) (i : Int) :
    atoi s = some i ↔ ∃ sign ds, s = sign ++ ds ∧ (sign = [] ∨ sign = b!"+" ∨ sign = b!"-") ∧ ds ≠ [] ∧ (∀ c ∈ ds, isDigit c = true) ∧
      i = (if sign = b!"-" then -(digitsVal 0 ds : Int) else (digitsVal 0 ds : Int)) ∧ -(2 ^ 63 : Int) ≤ i ∧ i < (2 ^ 63 : Int) := atoi_iff s i

/-- **C16** The path `key>i`, with the index written as `strconv.Itoa` writes it, answers element `i` of the collection; an index out of
range is reported as absent. -/
theorem C16_get_element {h : Heap} (wf : WF h) {a c : Addr} {key : Str} {l : List (Option Addr)} (hk : 62 ∉ key)
    (he : Entry h a key (.ptr c)) (hc : IsCollection h c l) (i : Int) (hi : -(2 ^ 63 : Int) ≤ i ∧ i < (2 ^ 63 : Int)) :
    (∀ e, 0 ≤ i → l[i.toNat]? = some (some e) → get h a (key ++ b!">" ++ itoa i) = .ok (some (.ptr e))) ∧
    (i < 0 ∨ (l.length : Int) ≤ i → get h a (key ++ b!">" ++ itoa i) = .ok none) := by
  have hd : 62 ∉ itoa i := by
    intro hm
    have : ∀ c ∈ itoa i, isDigit c = true ∨ c = 45 := by
      intro c hc
      cases i with
      | ofNat n =>
        exact Or.inl ((revDigits_spec (n + 1) n (by omega)).2.2 c (by simpa [itoa, natToStr] using hc))
      | negSucc n =>
        rcases List.mem_cons.1 hc with rfl | hc
        · exact Or.inr rfl
        · exact Or.inl ((revDigits_spec (n + 2) (n + 1) (by omega)).2.2 c (by simpa [natToStr] using hc))
    exact absurd (this 62 hm) (by decide)
  have hs : split 62 (key ++ b!">" ++ itoa i) = [key, itoa i] := by
    rw [List.append_assoc]
    exact (split_append_sep hk (itoa i)).trans (by rw [split_of_not_mem hd])
  have hat := atoi_itoa i hi
  constructor
  · intro e h0 hl
    apply C16_get_follows_path wf
    rw [hs]
    exact .element (i := i.toNat) he hc (by rw [hat]; congr 1; omega) hl
  · intro hr
    unfold get
    rw [hs]
    obtain ⟨t, m, hw, hm, hg⟩ := he
    have h1 := (target_iff wf).2 hw
    have hel : elems h c = l := elems_of hc
    have hac : asCollection h (.ptr c) = some c := by unfold asCollection; rcases hc with hc | hc <;> simp only [hc]
    have had : asDataset h (.ptr c) = none := by unfold asDataset; rcases hc with hc | hc <;> simp only [hc]
    have hen : (entries h t).get key = some (.ptr c) := by unfold entries; simp only [hm]; exact hg
    have hcg : colGet l i = none := by unfold colGet; rw [if_pos hr]
    simp only [getSegs, h1, hen, had, hac, hat, hel, hcg]

example : Entry sample 4 b!"c" (.ptr 3) ∧ IsCollection sample 3 [some 2] ∧ get sample 4 (b!"c" ++ b!">" ++ itoa 0) = .ok (some (.ptr 2)) :=
  ⟨⟨0, _, .wrapper (b := 0) rfl (.plain rfl), rfl, by decide⟩, Or.inl rfl, by decide⟩

/-! ## C17 -/

/-- **C17 is false**: after `Set("a>b", v)` on an empty dataset, `Get("a>b")` reports absence. -/
theorem C17_path_key_is_lost : ∃ h' : Heap, set [.ds []] 0 b!"a>b" (.str b!"v") = .ok h' ∧ get h' 0 b!"a>b" = .ok none :=
  ⟨_, rfl, by decide⟩

/-- **C17 (part)** `Get(key)` after `Set(key, v)` returns `v` if the key has no `>`, or if the part before the first `>` is the key of an
entry that is neither dataset nor collection. (Missing: other keys with `>`, see `C17_path_key_is_lost`.) -/
theorem C17_get_after_set_partial {h h' : Heap} {a : Addr} {key : Str} {v : Val} (e : set h a key v = .ok h') :
    (62 ∉ key → get h' a key = .ok (some v)) ∧
    (∀ s rest w, key = s ++ b!">" ++ rest → 62 ∉ s → Entry h a s w → Plain h w → get h' a key = .ok (some v)) := by
  refine ⟨fun hk => (C15_get_after_set hk e).1, ?_⟩
  intro s rest w hkey hs he hp
  obtain ⟨t, m, ht, hm, rfl⟩ := set_eq e
  have hsk : s ≠ key := by
    intro h'
    have := congrArg List.length (h'.trans hkey)
    simp at this
  have hg := (entry_iff (targetN_wraps ht)).1 he
  rw [entries_of hm] at hg
  have hsp : split 62 key = s :: split 62 rest := by rw [hkey, List.append_assoc]; exact split_append_sep hs rest
  have hj : join b!">" (split 62 key) = key := join_split 62 key
  rw [get_go, target_set hm, ht, hsp]
  cases hx : split 62 rest with
  | nil => exact absurd hx (split_ne_nil _ _)
  | cons s2 tl =>
    simp only [entries_set hm, if_true, AMap.get_set_ne _ _ hsk, hg, asDataset_set hm, (plain_iff.1 hp).1, asCollection_set hm,
      (plain_iff.1 hp).2, AMap.get_set_self]

/-- Non-vacuity: a literal key below a plain value. -/
example : ∃ h', set sample 0 b!"n>y" (.str b!"z") = .ok h' ∧ Entry sample 0 b!"n" (.int .int 7) ∧ Plain sample (.int .int 7) ∧
    get h' 0 b!"n>y" = .ok (some (.str b!"z")) :=
  ⟨_, rfl, ⟨0, _, .plain rfl, rfl, by decide⟩, (fun a e => by cases e), by decide⟩

/-- **C17, exactly** for keys with a `>`: after Set, Get returns the value if the part before the first `>` is the key of an entry that is
neither dataset nor collection. In all other cases the new entry is not seen: Get answers what it answered before. -/
theorem C17_path_key_exactly {h h' : Heap} {a : Addr} {s rest : Str} {v : Val} (hs : 62 ∉ s) (e : set h a (s ++ b!">" ++ rest) v = .ok h') :
    (∀ w, Entry h a s w → Plain h w → get h' a (s ++ b!">" ++ rest) = .ok (some v)) ∧
    ((¬ ∃ w, Entry h a s w ∧ Plain h w) → get h' a (s ++ b!">" ++ rest) = get h a (s ++ b!">" ++ rest)) := by
  constructor
  · exact fun w he hp => (C17_get_after_set_partial e).2 s rest w rfl hs he hp
  · intro hno
    obtain ⟨t, m, ht, hm, rfl⟩ := set_eq e
    have hsp : split 62 (s ++ b!">" ++ rest) = s :: split 62 rest := by rw [List.append_assoc]; exact split_append_sep hs rest
    have hj : (join b!">" (split 62 rest)).length = rest.length := congrArg List.length (join_split 62 rest)
    generalize hkey : s ++ b!">" ++ rest = key at *
    have hlk : key.length = s.length + 1 + rest.length := by rw [← hkey]; simp; omega
    have hsk : s ≠ key := by rintro rfl; omega
    unfold get
    rw [hsp]
    cases hx : split 62 rest with
    | nil => exact absurd hx (split_ne_nil _ _)
    | cons s2 tl =>
      rw [hx] at hj
      simp only [getSegs, target_set hm, ht, entries_set hm, if_true, AMap.get_set_ne _ _ hsk]
      rw [entries_of hm]
      cases hg : m.get s with
      | none => rfl
      | some w =>
        have he : Entry h a s w := ⟨t, m, targetN_wraps ht, hm, hg⟩
        dsimp only
        rw [asDataset_set hm, asCollection_set hm]
        cases hd : asDataset h w with
        | some b => exact getSegs_set_short hm _ _ _ (Nat.le_refl _) (by omega)
        | none =>
          dsimp only
          cases hc : asCollection h w with
          | none => exact absurd ⟨w, he, plain_iff.2 ⟨hd, hc⟩⟩ hno
          | some c =>
            dsimp only
            rw [elems_set hm]
            split
            · rfl
            · split
              · split
                · rfl
                · rename_i r rest'
                  have h3 := join_length_cons s2 r rest'
                  exact getSegs_set_short hm _ _ _ (Nat.le_refl _) (by omega)
              · rfl

/-- Non-vacuity: `c` is a collection, so the entry `c>0` is not seen. -/
example : ∃ h', set sample 0 b!"c>0" (.str b!"z") = .ok h' ∧ (¬ ∃ w, Entry sample 0 b!"c" w ∧ Plain sample w) ∧
    get h' 0 b!"c>0" = get sample 0 b!"c>0" := by
  refine ⟨_, rfl, ?_, by decide⟩
  rintro ⟨w, ⟨t, m, hw, hm, hg⟩, hp⟩
  have ht : t = 0 := wraps_unique hw (.plain rfl)
  subst ht
  simp only [sample, List.getElem?_cons_zero, Option.some.injEq, Obj.ds.injEq] at hm
  subst hm
  have : w = .ptr 3 := by simpa [AMap.get] using hg.symm
  subst this
  exact (hp 3 rfl).2 [some 2] (Or.inl rfl)

/-! ## C18 -/

/-- **C18** GetBool: absent exactly when Get is; otherwise false exactly for false, zero, the zero time and nil. -/
theorem C18_getBool {h : Heap} {a : Addr} {key : Str} {r : Option Val} (e : get h a key = .ok r) :
    (r = none → getBool h a key = .ok none) ∧
    (∀ v, r = some v → (IsFalse v → getBool h a key = .ok (some false)) ∧ (¬ IsFalse v → getBool h a key = .ok (some true))) := by
  unfold getBool
  rw [e]
  refine ⟨by rintro rfl; rfl, ?_⟩
  rintro v rfl
  refine ⟨fun hf => by simp [Res.map, toBool_iff.2 hf], fun hf => ?_⟩
  cases hb : toBool v with
  | true => simp [Res.map, hb]
  | false => exact absurd (toBool_iff.1 hb) hf

/-- **C18** GetInt: absent exactly when Get is or the value is not a bool, number or time; otherwise the documented conversion. -/
theorem C18_getInt (x : Ext) {h : Heap} {a : Addr} {key : Str} {r : Option Val} (e : get h a key = .ok r) :
    (getInt x h a key = .ok none ↔ r = none ∨ ∃ v, r = some v ∧ ¬ IsNumeric v) ∧
    (∀ v n, r = some v → ToInt v n → getInt x h a key = .ok (some n)) := by
  unfold getInt
  rw [e]
  constructor
  · cases r with
    | none => simp [Res.map]
    | some v =>
      simp only [Res.map, Option.bind_some, Res.ok.injEq, reduceCtorEq, Option.some.injEq, exists_eq_left', false_or]
      cases v with
      | int k n => cases k <;> simp [toInt, IsNumeric]
      | _ => simp [toInt, IsNumeric]
  · rintro v n rfl ht
    simp [Res.map, toInt_of ht]

/-- **C18** GetFloat: absent exactly when Get is or the value is not a bool, number or time. A float64 is returned as it is (bit for bit),
a float32 as the same number, an integer as the nearest float64; false and true are 0.0 and 1.0, the zero time is 0.0 and any other time the float64
nearest to its seconds since 1970. -/
theorem C18_getFloat {h : Heap} {a : Addr} {key : Str} {r : Option Val} (e : get h a key = .ok r) :
    (getFloat h a key = .ok none ↔ r = none ∨ ∃ v, r = some v ∧ ¬ IsNumeric v) ∧
    (∀ b, r = some (.f64 b) → getFloat h a key = .ok (some b)) ∧
    (∀ b, r = some (.f32 b) → ∃ f, getFloat h a key = .ok (some f) ∧ SameNumber b f) ∧
    (∀ k n, r = some (.int k n) → OfKind k n → ∃ f, getFloat h a key = .ok (some f) ∧ Nearest n f) ∧
    (r = some (.bool true) → ∃ f, getFloat h a key = .ok (some f) ∧ f64Scaled f = 2 ^ 1074) ∧
    (r = some (.bool false) → getFloat h a key = .ok (some 0)) ∧
    (r = some (.time 0) → getFloat h a key = .ok (some 0)) ∧
    (∀ ns s, r = some (.time ns) → ns ≠ 0 → ToInt (.time ns) s → FitsInt s → ∃ f, getFloat h a key = .ok (some f) ∧ Nearest s f) := by
  unfold getFloat
  rw [e]
  refine ⟨?_, ?_, ?_, ?_, ?_, ?_, ?_, ?_⟩
  · cases r with
    | none => simp [Res.map]
    | some v =>
      simp only [Res.map, Option.bind_some, Res.ok.injEq, reduceCtorEq, Option.some.injEq, exists_eq_left', false_or]
      cases v <;> simp [toFloat, IsNumeric]
  · rintro b rfl; rfl
  · rintro b rfl; exact ⟨_, rfl, f32to64_same b⟩
  · rintro k n rfl hk; exact ⟨_, rfl, (intToF64_nearest hk.natAbs_lt).1⟩
  · rintro rfl
    refine ⟨0x3FF0000000000000, rfl, ?_⟩
    have h1 : (0x3FF0000000000000 : UInt64).toNat / 2 ^ 52 % 2 ^ 11 = 1023 := by decide
    have h2 : (0x3FF0000000000000 : UInt64).toNat % 2 ^ 52 = 0 := by decide
    have h3 : ¬ (0x3FF0000000000000 : UInt64).toNat / 2 ^ 63 = 1 := by decide
    unfold f64Scaled
    simp only [h1, h2, h3, if_false]
    rw [if_neg (by decide), Nat.add_zero, ← Nat.pow_add]
    exact Int.natCast_pow 2 1074
  · rintro rfl; rfl
  · rintro rfl; rfl
  · rintro ns s rfl hz ht hs
    have := toInt_of (x := ⟨fun _ => [], fun _ => [], fun _ => [], fun _ => [], fun _ => [], fun _ _ => [], fun _ => 0⟩) ht
    simp only [toInt, if_neg hz, Option.some.injEq] at this
    refine ⟨intToF64 s, by simp [Res.map, toFloat, hz, this], (intToF64_nearest ?_).1⟩
    unfold FitsInt at hs
    omega

/-- **C18** GetTime, the slice getters, GetDataset and GetCollection answer exactly when the value has that type, with the value itself. -/
theorem C18_exact_type_getters {h : Heap} {a : Addr} {key : Str} {r : Option Val} (e : get h a key = .ok r) :
    (∀ ns, getTime h a key = .ok (some ns) ↔ r = some (.time ns)) ∧
    (getTime h a key = .ok none ↔ ∀ ns, r ≠ some (.time ns)) ∧
    (∀ k b, getSlice k h a key = .ok (some b) ↔ r = some (.slice k b)) ∧
    (∀ k, getSlice k h a key = .ok none ↔ ∀ b, r ≠ some (.slice k b)) ∧
    (∀ b, getDataset h a key = .ok (some b) ↔ r = some (.ptr b) ∧ IsDataset h b) ∧
    (getDataset h a key = .ok none ↔ ∀ b, r = some (.ptr b) → ¬ IsDataset h b) ∧
    (∀ c, getCollection h a key = .ok (some c) ↔ r = some (.ptr c) ∧ ∃ l, IsCollection h c l) ∧
    (getCollection h a key = .ok none ↔ ∀ c l, r = some (.ptr c) → ¬ IsCollection h c l) := by
  have some_ds : ∀ b, r.bind (asDataset h) = some b ↔ r = some (.ptr b) ∧ IsDataset h b := by
    intro b
    cases r with
    | none => simp
    | some v => simp [asDataset_some]
  have some_col : ∀ c, r.bind (asCollection h) = some c ↔ r = some (.ptr c) ∧ ∃ l, IsCollection h c l := by
    intro c
    cases r with
    | none => simp
    | some v =>
      simp only [Option.bind_some, asCollection_some, Option.some.injEq]
      exact ⟨fun ⟨h1, h2⟩ => ⟨h1, _, h2⟩, fun ⟨h1, l, h2⟩ => ⟨h1, by rw [elems_of h2]; exact h2⟩⟩
  unfold getTime getSlice getDataset getCollection
  rw [e]
  simp only [Res.map, Res.ok.injEq]
  refine ⟨?_, ?_, ?_, ?_, some_ds, ?_, some_col, ?_⟩
  · intro ns; split <;> simp_all
  · split <;> simp_all
  · intro k b
    split
    · rename_i k' b'
      by_cases hk : k' = k <;> simp [hk]
    · rename_i hne
      simp only [reduceCtorEq, false_iff]
      intro h'; exact hne k b h'
  · intro k
    split
    · rename_i k' b'
      by_cases hk : k' = k
      · subst hk
        simp
      · simp [hk]
    · rename_i hne
      simp only [true_iff]
      intro b h'; exact hne k b h'
  · constructor
    · intro hn b hr hd
      rw [(some_ds b).2 ⟨hr, hd⟩] at hn; cases hn
    · intro hn
      cases hb : r.bind (asDataset h) with
      | none => rfl
      | some b => exact absurd ((some_ds b).1 hb).2 (hn b ((some_ds b).1 hb).1)
  · constructor
    · intro hn c l hr hd
      rw [(some_col c).2 ⟨hr, l, hd⟩] at hn; cases hn
    · intro hn
      cases hb : r.bind (asCollection h) with
      | none => rfl
      | some c =>
        obtain ⟨h1, l, h2⟩ := (some_col c).1 hb
        exact absurd h2 (hn c l h1)

/-- **C18** GetString: absent exactly when Get is; nil gives the empty string, a string itself, an integer its decimal notation, a bool
`true` or `false`, and any other value what `fmt.Sprint` prints (given enough stack). -/
theorem C18_getString (x : Ext) (n : Nat) {h : Heap} {a : Addr} {key : Str} {r : Option Val} (e : get h a key = .ok r) :
    (getString x n h a key = .ok none ↔ r = none) ∧
    (r = some .nil → getString x n h a key = .ok (some [])) ∧
    (∀ v s, r = some v → v ≠ .nil → sprint x n h v = some s → getString x n h a key = .ok (some s)) ∧
    (∀ s, sprint x (n + 1) h (.str s) = some s) ∧
    (∀ k i, sprint x (n + 1) h (.int k i) = some (itoa i)) ∧
    sprint x (n + 1) h (.bool true) = some b!"true" ∧ sprint x (n + 1) h (.bool false) = some b!"false" := by
  unfold getString
  rw [e]
  refine ⟨?_, ?_, ?_, fun s => rfl, fun k i => rfl, rfl, rfl⟩
  · simp only [Res.bind]
    split
    · simp
    · simp
    · rename_i v hv
      cases sprint x n h v <;> simp [ofFuel, Res.map]
  · rintro rfl; rfl
  · rintro v s rfl hv hs
    cases v <;> first | exact absurd rfl hv | simp [Res.bind, ofFuel, Res.map, hs]

/-- Runtime functions for the examples. -/
def someExt : Ext := ⟨fun _ => b!"f", fun _ => b!"g", fun _ => b!"t", fun _ => b!"o", fun _ => b!"#", fun _ _ => b!"[]", fun _ => 0⟩

/-- Non-vacuity: 2.75 (0x4006000000000000) is true and has integer part 2; -0.0 is false; one second before 1970 is -1. -/
example : ToInt (.f64 0x4006000000000000) 2 ∧ IsFalse (.f64 0x8000000000000000) ∧
    ToInt (.time (62135596800 * 1000000000 - 1)) (-1) ∧ ToInt (.int .uint8 200) 200 := by
  refine ⟨.f64 (by unfold f64Finite; decide) ?_ ⟨by decide, by decide⟩, .f64 (by unfold f64Finite; decide) (by decide), .time (by decide) (by decide) (by decide), .int ⟨by decide, by decide⟩⟩
  have hs : f64Scaled 0x4006000000000000 = 0x16000000000000 * 2 ^ 1023 := by
    have h1 : (0x4006000000000000 : UInt64).toNat / 2 ^ 52 % 2 ^ 11 = 1024 := by decide
    have h2 : (0x4006000000000000 : UInt64).toNat % 2 ^ 52 = 0x6000000000000 := by decide
    have h3 : ¬ (0x4006000000000000 : UInt64).toNat / 2 ^ 63 = 1 := by decide
    unfold f64Scaled
    simp only [h1, h2, h3, if_false]
    rw [if_neg (by decide), Int.natCast_mul, Int.natCast_pow]
    rfl
  have hp : (2 : Int) ^ 1074 = 2 ^ 51 * 2 ^ 1023 := by rw [← Int.pow_add]
  have hpos : (0 : Int) < 2 ^ 1023 := Int.pow_pos (by decide)
  unfold IntegerPart
  rw [hs, hp]
  generalize (2 : Int) ^ 1023 = P at *
  rw [if_pos (by omega)]
  constructor <;> omega

/-! ## C19 -/

/-- **C19 is false** for values of uint and uint64 from 2^63 on: GetInt returns a negative number. -/
theorem C19_large_unsigned_wraps :
    getInt someExt [.ds [(b!"k", .int .uint64 (2 ^ 63))]] 0 b!"k" = .ok (some (-2 ^ 63)) ∧
    getInt someExt [.ds [(b!"k", .int .uint (2 ^ 64 - 1))]] 0 b!"k" = .ok (some (-1)) := by decide

/-- **C19 (part)** For a value of any integer type GetInt returns the same integer, if the type is not uint or uint64 or the value is below
2^63; otherwise it returns the integer minus 2^64. (Missing: large unsigned values, see `C19_large_unsigned_wraps`.) -/
theorem C19_getInt_integer_partial (x : Ext) {h : Heap} {a : Addr} {key : Str} {k : IntKind} {n : Int} (hv : Valid h (.int k n))
    (e : get h a key = .ok (some (.int k n))) :
    ((k ≠ .uint ∧ k ≠ .uint64 ∨ n < 2 ^ 63) → getInt x h a key = .ok (some n)) ∧
    (2 ^ 63 ≤ n → getInt x h a key = .ok (some (n - 2 ^ 64))) := by
  simp only [Valid] at hv
  constructor
  · intro hor
    refine (C18_getInt x e).2 _ n rfl (.int ?_)
    unfold FitsInt
    cases k <;> simp [OfKind] at hv hor ⊢ <;> omega
  · intro hn
    unfold getInt
    rw [e]
    cases k <;> simp [OfKind, Res.map, toInt, wrap64] at hv hn ⊢ <;> omega

/-- Non-vacuity. -/
example : Valid sample (.int .int8 (-128)) ∧ Valid sample (.int .uint64 (2 ^ 64 - 1)) := by unfold Valid OfKind; decide

/-! ## C25 -/

theorem exec_step {h : Heap} {c : Addr} {l : List (Option Addr)} (hc : IsCollection h c l) (op : QOp) :
    ∃ l', QStep l op (op.exec h c).2 l' ∧ IsCollection (op.exec h c).1 c l' ∧ ∀ b : Addr, b ≠ c → (op.exec h c).1[b]? = h[b]? := by
  have he := elems_of hc
  have other : ∀ l' (b : Addr), b ≠ c → (setElems h c l')[b]? = h[b]? := by
    intro l' b hb
    obtain ⟨o, o', _, _, h3, _⟩ := sameKind_col hc l'
    rw [h3, List.getElem?_set, if_neg (Ne.symm hb)]
  cases op with
  | push d => exact ⟨l ++ [d], .push, by simp only [QOp.exec, push, he]; exact setElems_elems hc _, other _⟩
  | unshift d => exact ⟨d :: l, .unshift, by simp only [QOp.exec, unshift, he]; exact setElems_elems hc _, other _⟩
  | pop =>
    simp only [QOp.exec, pop, he]
    rcases List.eq_nil_or_concat l with rfl | ⟨l', d, rfl⟩
    · exact ⟨[], .popEmpty, hc, fun _ _ => rfl⟩
    · simp only [List.concat_eq_append, List.getLast?_concat, List.dropLast_concat]
      exact ⟨l', .pop, setElems_elems hc _, other _⟩
  | shift =>
    simp only [QOp.exec, shift, he]
    cases l with
    | nil => exact ⟨[], .shiftEmpty, hc, fun _ _ => rfl⟩
    | cons d l => exact ⟨l, .shift, setElems_elems hc _, other _⟩
  | count => exact ⟨l, by simp only [QOp.exec, count, he]; exact .count, hc, fun _ _ => rfl⟩
  | get i =>
    refine ⟨l, ?_, hc, fun _ _ => rfl⟩
    simp only [QOp.exec, colGetAt, he]
    cases hg : colGet l i with
    | none =>
      apply QStep.getOut
      unfold colGet at hg
      split at hg
      · assumption
      · rename_i hn
        have : i.toNat < l.length := by omega
        rw [List.getElem?_eq_getElem this] at hg; cases hg
    | some d =>
      obtain ⟨k, rfl, hk⟩ := colGet_some.1 hg
      have hlt := lt_of_getElem? hk
      have : l = l.take k ++ [d] ++ l.drop (k + 1) := by
        have h1 : l[k] = d := by rw [List.getElem?_eq_getElem hlt] at hk; exact Option.some.inj hk
        rw [← h1, List.append_assoc, List.singleton_append, List.getElem_cons_drop, List.take_append_drop]
      have hlen : (l.take k).length = k := by rw [List.length_take]; omega
      rw [this]
      have := @QStep.get (l.take k) (l.drop (k + 1)) d
      rw [hlen] at this
      exact this

/-- **C25** Any sequence of Push, Pop, Shift, Unshift, Count and Get calls on a collection, of either type, answers as the same calls on a
mathematical sequence (Pop and Shift panic on the empty sequence; Get(i) answers exactly for 0 ≤ i < length), and changes nothing but the
collection. -/
theorem C25_collection_is_a_sequence {h : Heap} {c : Addr} {l : List (Option Addr)} (hc : IsCollection h c l) (ops : List QOp) :
    ∃ l', QRun l (execAll h c ops).2 l' ∧ IsCollection (execAll h c ops).1 c l' ∧
      ∀ b : Addr, b ≠ c → (execAll h c ops).1[b]? = h[b]? := by
  induction ops generalizing h l with
  | nil => exact ⟨l, .nil, hc, fun _ _ => rfl⟩
  | cons op ops ih =>
    obtain ⟨l', h1, h2, h3⟩ := exec_step hc op
    obtain ⟨l'', h4, h5, h6⟩ := ih h2
    exact ⟨l'', .cons h1 h4, h5, fun b hb => (h6 b hb).trans (h3 b hb)⟩

/-- **C25** Pop and Shift panic exactly on an empty collection. -/
theorem C25_pop_and_shift_panic_exactly_when_empty {h : Heap} {c : Addr} {l : List (Option Addr)} (hc : IsCollection h c l) :
    (pop h c = .panic ↔ l = []) ∧ (shift h c = .panic ↔ l = []) := by
  unfold pop shift
  rw [elems_of hc]
  constructor
  · rcases List.eq_nil_or_concat l with rfl | ⟨l', d, rfl⟩
    · simp
    · simp [List.getLast?_concat]
  · cases l <;> simp

/-- **C25** The specification determines answers and contents. -/
theorem C25_specification_is_deterministic {l l1 l2 : List (Option Addr)} {op : QOp} {o1 o2 : QOut} (h1 : QStep l op o1 l1)
    (h2 : QStep l op o2 l2) : o1 = o2 ∧ l1 = l2 := by
  have inv : ∀ {l l' : List (Option Addr)} {op : QOp} {o : QOut}, QStep l op o l' → match op with
      | .push d => o = .done ∧ l' = l ++ [d]
      | .unshift d => o = .done ∧ l' = d :: l
      | .pop => l = [] ∧ o = .panic ∧ l' = [] ∨ ∃ d, l = l' ++ [d] ∧ o = .elem d
      | .shift => l = [] ∧ o = .panic ∧ l' = [] ∨ ∃ d, l = d :: l' ∧ o = .elem d
      | .count => o = .num l.length ∧ l' = l
      | .get i => l' = l ∧ ((i < 0 ∨ (l.length : Int) ≤ i) ∧ o = .absent ∨ ∃ k : Nat, i = k ∧ k < l.length ∧ ∃ d, l[k]? = some d ∧ o = .elem d) := by
    intro l l' op o h
    cases h with
    | push => exact ⟨rfl, rfl⟩
    | unshift => exact ⟨rfl, rfl⟩
    | pop => exact Or.inr ⟨_, rfl, rfl⟩
    | popEmpty => exact Or.inl ⟨rfl, rfl, rfl⟩
    | shift => exact Or.inr ⟨_, rfl, rfl⟩
    | shiftEmpty => exact Or.inl ⟨rfl, rfl, rfl⟩
    | count => exact ⟨rfl, rfl⟩
    | get => exact ⟨rfl, Or.inr ⟨_, rfl, by simp, _, by simp, rfl⟩⟩
    | getOut ho => exact ⟨rfl, Or.inl ⟨ho, rfl⟩⟩
  have i1 := inv h1
  have i2 := inv h2
  cases op with
  | push d => exact ⟨i1.1.trans i2.1.symm, i1.2.trans i2.2.symm⟩
  | unshift d => exact ⟨i1.1.trans i2.1.symm, i1.2.trans i2.2.symm⟩
  | count => exact ⟨i1.1.trans i2.1.symm, i1.2.trans i2.2.symm⟩
  | pop =>
    rcases i1 with ⟨e1, e2, e3⟩ | ⟨d, e1, e2⟩ <;> rcases i2 with ⟨f1, f2, f3⟩ | ⟨d', f1, f2⟩
    · exact ⟨e2.trans f2.symm, e3.trans f3.symm⟩
    · rw [e1] at f1; simp at f1
    · rw [f1] at e1; simp at e1
    · rw [e1] at f1
      obtain ⟨g1, g2⟩ := List.append_inj' f1 rfl
      cases g2; exact ⟨e2.trans f2.symm, g1⟩
  | shift =>
    rcases i1 with ⟨e1, e2, e3⟩ | ⟨d, e1, e2⟩ <;> rcases i2 with ⟨f1, f2, f3⟩ | ⟨d', f1, f2⟩
    · exact ⟨e2.trans f2.symm, e3.trans f3.symm⟩
    · rw [e1] at f1; simp at f1
    · rw [f1] at e1; simp at e1
    · rw [e1] at f1
      cases f1; exact ⟨e2.trans f2.symm, rfl⟩
  | get i =>
    refine ⟨?_, i1.1.trans i2.1.symm⟩
    rcases i1.2 with ⟨e1, e2⟩ | ⟨k, rfl, e1, d, e2, e3⟩ <;> rcases i2.2 with ⟨f1, f2⟩ | ⟨k', f0, f1, d', f2, f3⟩
    · exact e2.trans f2.symm
    · omega
    · omega
    · have : k = k' := by omega
      subst this
      rw [e2] at f2; cases f2
      exact e3.trans f3.symm

/-- Non-vacuity: a run on a thread-safe collection. -/
example : (execAll [.colTS [], .ds [], .ds []] 0 [.push (some 1), .unshift (some 2), .get 0, .pop, .pop, .pop, .get 0, .count]).2 =
    [(.push (some 1), .done), (.unshift (some 2), .done), (.get 0, .elem (some 2)), (.pop, .elem (some 1)), (.pop, .elem (some 2)),
     (.pop, .panic), (.get 0, .absent), (.count, .num 0)] := by decide

/-! ## C26 -/

/-- **C26** GetData(key) answers `v` exactly when some element answers `v` and all elements after it report absence; it reports absence
exactly when all elements do. -/
theorem C26_last_dataset_wins {h : Heap} {c : Addr} {l : List (Option Addr)} (hc : IsCollection h c l) (key : Str) :
    (∀ v, getData h c key = .ok (some v) ↔ ∃ pre a post, l = pre ++ [some a] ++ post ∧ get h a key = .ok (some v) ∧
      ∀ d ∈ post, ∃ b, d = some b ∧ get h b key = .ok none) ∧
    (getData h c key = .ok none ↔ ∀ d ∈ l, ∃ b, d = some b ∧ get h b key = .ok none) := by
  have key1 : ∀ (r : List (Option Addr)), (∀ v, getDataL h key r = .ok (some v) ↔ ∃ post a pre, r = post ++ some a :: pre ∧
      get h a key = .ok (some v) ∧ ∀ d ∈ post, ∃ b, d = some b ∧ get h b key = .ok none) ∧
      (getDataL h key r = .ok none ↔ ∀ d ∈ r, ∃ b, d = some b ∧ get h b key = .ok none) := by
    intro r
    induction r with
    | nil => simp [getDataL]
    | cons d r ih =>
      cases d with
      | none =>
        refine ⟨fun v => ⟨fun e => by simp [getDataL] at e, ?_⟩, ⟨fun e => by simp [getDataL] at e, ?_⟩⟩
        · rintro ⟨post, a, pre, e1, e2, e3⟩
          cases post with
          | nil => simp at e1
          | cons p post =>
            simp only [List.cons_append, List.cons.injEq] at e1
            obtain ⟨b, e4, _⟩ := e3 p (by simp)
            rw [e4] at e1; cases e1.1
        · intro e
          obtain ⟨b, e4, _⟩ := e none (by simp)
          cases e4
      | some a =>
        simp only [getDataL]
        cases hg : get h a key with
        | ok res =>
          simp only [Res.bind]
          cases res with
          | some w =>
            refine ⟨fun v => ⟨fun e => ?_, ?_⟩, ⟨fun e => by simp at e, ?_⟩⟩
            · simp only [Res.ok.injEq, Option.some.injEq] at e; subst e
              exact ⟨[], a, r, rfl, hg, by simp⟩
            · rintro ⟨post, b, pre, e1, e2, e3⟩
              cases post with
              | nil =>
                simp only [List.nil_append, List.cons.injEq, Option.some.injEq] at e1
                rw [← e1.1, hg] at e2; exact e2
              | cons p post =>
                simp only [List.cons_append, List.cons.injEq] at e1
                obtain ⟨b', e4, e5⟩ := e3 p (by simp)
                rw [← e1.1] at e4; cases e4
                rw [hg] at e5; cases e5
            · intro e
              obtain ⟨b', e4, e5⟩ := e (some a) (by simp)
              cases e4; rw [hg] at e5; cases e5
          | none =>
            refine ⟨fun v => ?_, ?_⟩
            · rw [ih.1 v]
              constructor
              · rintro ⟨post, b, pre, e1, e2, e3⟩
                refine ⟨some a :: post, b, pre, by rw [e1]; rfl, e2, ?_⟩
                intro d hd
                rcases List.mem_cons.1 hd with rfl | hd
                · exact ⟨a, rfl, hg⟩
                · exact e3 d hd
              · rintro ⟨post, b, pre, e1, e2, e3⟩
                cases post with
                | nil =>
                  simp only [List.nil_append, List.cons.injEq, Option.some.injEq] at e1
                  rw [← e1.1, hg] at e2; cases e2
                | cons p post =>
                  simp only [List.cons_append, List.cons.injEq] at e1
                  exact ⟨post, b, pre, e1.2, e2, fun d hd => e3 d (by simp [hd])⟩
            · rw [ih.2]
              constructor
              · intro e d hd
                rcases List.mem_cons.1 hd with rfl | hd
                · exact ⟨a, rfl, hg⟩
                · exact e d hd
              · intro e d hd; exact e d (by simp [hd])
        | panic =>
          simp only [Res.bind]
          refine ⟨fun v => ⟨fun e => (by cases e), ?_⟩, ⟨fun e => (by cases e), ?_⟩⟩
          · rintro ⟨post, b, pre, e1, e2, e3⟩
            cases post with
            | nil =>
              simp only [List.nil_append, List.cons.injEq, Option.some.injEq] at e1
              rw [← e1.1, hg] at e2; cases e2
            | cons p post =>
              simp only [List.cons_append, List.cons.injEq] at e1
              obtain ⟨b', e4, e5⟩ := e3 p (by simp)
              rw [← e1.1] at e4; cases e4
              rw [hg] at e5; cases e5
          · intro e
            obtain ⟨b', e4, e5⟩ := e (some a) (by simp)
            cases e4; rw [hg] at e5; cases e5
        | diverge =>
          simp only [Res.bind]
          refine ⟨fun v => ⟨fun e => (by cases e), ?_⟩, ⟨fun e => (by cases e), ?_⟩⟩
          · rintro ⟨post, b, pre, e1, e2, e3⟩
            cases post with
            | nil =>
              simp only [List.nil_append, List.cons.injEq, Option.some.injEq] at e1
              rw [← e1.1, hg] at e2; cases e2
            | cons p post =>
              simp only [List.cons_append, List.cons.injEq] at e1
              obtain ⟨b', e4, e5⟩ := e3 p (by simp)
              rw [← e1.1] at e4; cases e4
              rw [hg] at e5; cases e5
          · intro e
            obtain ⟨b', e4, e5⟩ := e (some a) (by simp)
            cases e4; rw [hg] at e5; cases e5
  unfold getData
  rw [elems_of hc]
  constructor
  · intro v
    rw [(key1 l.reverse).1 v]
    constructor
    · rintro ⟨post, a, pre, e1, e2, e3⟩
      refine ⟨pre.reverse, a, post.reverse, ?_, e2, fun d hd => e3 d (by simpa using hd)⟩
      have := congrArg List.reverse e1
      simpa using this
    · rintro ⟨pre, a, post, e1, e2, e3⟩
      refine ⟨post.reverse, a, pre.reverse, ?_, e2, fun d hd => e3 d (by simpa using hd)⟩
      rw [e1]; simp
  · rw [(key1 l.reverse).2]
    simp

/-- **C26** GetData(key) panics exactly when it comes, from the last element on, to a nil element or to one whose Get panics (a wrapper around
nothing), all elements after it reporting absence. -/
theorem C26_getData_panics {h : Heap} {c : Addr} {l : List (Option Addr)} (hc : IsCollection h c l) (key : Str) :
    getData h c key = .panic ↔ ∃ pre d post, l = pre ++ [d] ++ post ∧ (∀ b, d = some b → get h b key = .panic) ∧
      ∀ d ∈ post, ∃ b, d = some b ∧ get h b key = .ok none := by
  have key1 : ∀ (r : List (Option Addr)), getDataL h key r = .panic ↔ ∃ post d pre, r = post ++ d :: pre ∧
      (∀ b, d = some b → get h b key = .panic) ∧ ∀ d ∈ post, ∃ b, d = some b ∧ get h b key = .ok none := by
    intro r
    induction r with
    | nil => simp [getDataL]
    | cons d r ih =>
      cases d with
      | none => exact ⟨fun _ => ⟨[], none, r, rfl, by simp, by simp⟩, fun _ => rfl⟩
      | some a =>
        simp only [getDataL]
        -- an element that does not report absence is the first one met
        have first : get h a key ≠ .ok none → ((∃ post d pre, some a :: r = post ++ d :: pre ∧
            (∀ b, d = some b → get h b key = .panic) ∧ ∀ d ∈ post, ∃ b, d = some b ∧ get h b key = .ok none) ↔ get h a key = .panic) := by
          intro hne
          constructor
          · rintro ⟨post, d, pre, e1, e2, e3⟩
            cases post with
            | nil => cases e1; exact e2 a rfl
            | cons p post =>
              cases e1
              obtain ⟨b, e4, e5⟩ := e3 (some a) (by simp)
              cases e4; exact absurd e5 hne
          · exact fun e => ⟨[], some a, r, rfl, fun b hb => by cases hb; exact e, by simp⟩
        cases hg : get h a key with
        | ok res =>
          cases res with
          | some w => rw [first (by rw [hg]; simp), hg]; simp [Res.bind]
          | none =>
            simp only [Res.bind]
            rw [ih]
            constructor
            · rintro ⟨post, d, pre, e1, e2, e3⟩
              refine ⟨some a :: post, d, pre, by rw [e1]; rfl, e2, ?_⟩
              intro d hd
              rcases List.mem_cons.1 hd with rfl | hd
              · exact ⟨a, rfl, hg⟩
              · exact e3 d hd
            · rintro ⟨post, d, pre, e1, e2, e3⟩
              cases post with
              | nil => cases e1; rw [e2 a rfl] at hg; cases hg
              | cons p post => cases e1; exact ⟨post, d, pre, rfl, e2, fun d hd => e3 d (by simp [hd])⟩
        | panic => rw [first (by rw [hg]; simp), hg]; simp [Res.bind]
        | diverge => rw [first (by rw [hg]; simp), hg]; simp [Res.bind]
  unfold getData
  rw [elems_of hc, key1]
  constructor
  · rintro ⟨post, d, pre, e1, e2, e3⟩
    refine ⟨pre.reverse, d, post.reverse, ?_, e2, fun d hd => e3 d (by simpa using hd)⟩
    have := congrArg List.reverse e1
    simpa using this
  · rintro ⟨pre, d, post, e1, e2, e3⟩
    refine ⟨post.reverse, d, pre.reverse, ?_, e2, fun d hd => e3 d (by simpa using hd)⟩
    rw [e1]; simp

/-- Non-vacuity: the nil element is met before the dataset that has the key, or after it. -/
example : getData [.ds [(b!"k", .bool true)], .col [some 0, none]] 1 b!"k" = .panic ∧
    getData [.ds [(b!"k", .bool true)], .col [none, some 0]] 1 b!"k" = .ok (some (.bool true)) ∧
    getData [.ds [], .dsTS none, .col [some 1, some 0]] 2 b!"k" = .panic := by decide

/-- **C26** The typed lookups of XDatasetCollection agree with GetData: they answer exactly when the value has the type asked for. -/
theorem C26_typed_lookups (x : Ext) (n : Nat) {h : Heap} {c : Addr} {key : Str} {r : Option Val} (e : getData h c key = .ok r) :
    (∀ b, getDataBool h c key = .ok (some b) ↔ r = some (.bool b)) ∧
    (∀ i, getDataInt h c key = .ok (some i) ↔ r = some (.int .int i)) ∧
    (∀ f, getDataFloat h c key = .ok (some f) ↔ r = some (.f64 f)) ∧
    (∀ ns, getDataTime h c key = .ok (some ns) ↔ r = some (.time ns)) ∧
    (∀ d, getDataCollection h c key = .ok (some d) ↔ r = some (.ptr d) ∧ ∃ l, IsCollection h d l) ∧
    (getDataString x n h c key = .ok none ↔ r = none) ∧
    (r = some .nil → getDataString x n h c key = .ok (some [])) ∧
    (∀ v s, r = some v → v ≠ .nil → sprint x n h v = some s → getDataString x n h c key = .ok (some s)) := by
  unfold getDataBool getDataInt getDataFloat getDataTime getDataCollection getDataString
  rw [e]
  simp only [Res.map, Res.ok.injEq]
  refine ⟨?_, ?_, ?_, ?_, ?_, ?_, ?_, ?_⟩
  · intro b
    cases r with
    | none => simp
    | some v => cases v <;> simp
  · intro b; split <;> simp_all
  · intro b; split <;> simp_all
  · intro b; split <;> simp_all
  · intro d
    cases r with
    | none => simp
    | some v =>
      simp only [Option.bind_some, asCollection_some, Option.some.injEq]
      exact ⟨fun ⟨h1, h2⟩ => ⟨h1, _, h2⟩, fun ⟨h1, l, h2⟩ => ⟨h1, by rw [elems_of h2]; exact h2⟩⟩
  · simp only [Res.bind]
    split
    · simp
    · simp
    · rename_i v hv
      cases sprint x n h v <;> simp [ofFuel]
  · rintro rfl; rfl
  · rintro v s rfl hv hs
    cases v <;> first | exact absurd rfl hv | simp [Res.bind, ofFuel, hs]

/-- **C26 (part)** The typed lookups of XDatasetCollectionTS: GetDataString and GetCollection agree with GetData when the value is not nil
and, for GetCollection, is a collection. (Missing: see `C26_ts_lookups_differ`; the other typed lookups are the same code.) -/
theorem C26_ts_typed_lookups_partial (x : Ext) (n : Nat) {h : Heap} {c : Addr} {key : Str} {r : Option Val}
    (e : getData h c key = .ok r) :
    (r ≠ some .nil → getDataStringTS x n h c key = getDataString x n h c key) ∧
    ((∀ v, r = some v → ∃ d l, v = .ptr d ∧ IsCollection h d l) → getDataCollectionTS h c key = getDataCollection h c key) := by
  constructor
  · intro hn
    unfold getDataStringTS getDataString
    rw [e]
    simp only [Res.bind]
    cases r with
    | none => rfl
    | some v => cases v <;> first | rfl | exact absurd rfl hn
  · intro hv
    unfold getDataCollectionTS getDataCollection
    rw [e]
    cases r with
    | none => rfl
    | some v =>
      obtain ⟨d, l, rfl, hl⟩ := hv v rfl
      have := asCollection_some.2 (⟨rfl, by rw [elems_of hl]; exact hl⟩ : Val.ptr d = .ptr d ∧ IsCollection h d (elems h d))
      simp [Res.bind, Res.map, this]

/-- **C26 is false of XDatasetCollectionTS in two cases**: a nil value is printed as `<nil>`, and GetCollection panics if the value is not a
collection. -/
theorem C26_ts_lookups_differ :
    let h : Heap := [.ds [(b!"n", .nil), (b!"s", .str b!"v")], .colTS [some 0]]
    getDataString someExt 5 h 1 b!"n" = .ok (some []) ∧ getDataStringTS someExt 5 h 1 b!"n" = .ok (some b!"<nil>") ∧
    getDataCollection h 1 b!"s" = .ok none ∧ getDataCollectionTS h 1 b!"s" = .panic := by decide

/-- **C26** What the typed lookups of XDatasetCollectionTS answer in every case: GetDataString prints every value, nil as `<nil>`;
GetCollection panics exactly when GetData panics or the value is no collection. -/
theorem C26_ts_typed_lookups_exactly (x : Ext) (n : Nat) {h : Heap} {c : Addr} {key : Str} :
    (∀ v s, getData h c key = .ok (some v) → sprint x n h v = some s → getDataStringTS x n h c key = .ok (some s)) ∧
    (getDataStringTS x n h c key = .ok none ↔ getData h c key = .ok none) ∧
    (getDataStringTS x n h c key = .panic ↔ getData h c key = .panic) ∧
    (∀ d, getDataCollectionTS h c key = .ok (some d) ↔ getData h c key = .ok (some (.ptr d)) ∧ ∃ l, IsCollection h d l) ∧
    (getDataCollectionTS h c key = .ok none ↔ getData h c key = .ok none) ∧
    (getDataCollectionTS h c key = .panic ↔
      getData h c key = .panic ∨ ∃ v, getData h c key = .ok (some v) ∧ ∀ d l, v = .ptr d → ¬ IsCollection h d l) := by
  have hcol : ∀ v d, asCollection h v = some d ↔ v = .ptr d ∧ ∃ l, IsCollection h d l := fun v d => by
    rw [asCollection_some]
    exact ⟨fun ⟨h1, h2⟩ => ⟨h1, _, h2⟩, fun ⟨h1, l, h2⟩ => ⟨h1, by rw [elems_of h2]; exact h2⟩⟩
  unfold getDataStringTS getDataCollectionTS
  cases getData h c key with
  | panic => simp [Res.bind]
  | diverge => simp [Res.bind]
  | ok r =>
    cases r with
    | none => simp [Res.bind]
    | some v =>
      simp only [Res.bind, Res.ok.injEq, Option.some.injEq, reduceCtorEq, iff_false, false_or]
      refine ⟨?_, ?_, ?_, ?_, ?_, ?_⟩
      · rintro w s rfl hs
        simp [hs, ofFuel, Res.map]
      · cases sprint x n h v <;> simp [ofFuel, Res.map]
      · cases sprint x n h v <;> simp [ofFuel, Res.map]
      · intro d
        rw [← hcol]
        cases asCollection h v <;> simp
      · cases asCollection h v <;> simp
      · cases hc : asCollection h v with
        | none =>
          simp only [true_iff]
          refine ⟨v, rfl, fun d l hv hl => ?_⟩
          have := (hcol v d).2 ⟨hv, l, hl⟩
          rw [hc] at this; cases this
        | some d =>
          obtain ⟨h1, l, h2⟩ := (hcol v d).1 hc
          simp only [reduceCtorEq, false_iff, not_exists, not_and]
          rintro w rfl hw
          exact hw d l h1 h2

/-- Non-vacuity: the second dataset hides the first for one key. -/
example : let h : Heap := [.ds [(b!"k", .int .int 1), (b!"j", .int .int 2)], .ds [(b!"k", .bool true)], .col [some 0, some 1]]
    getData h 2 b!"k" = .ok (some (.bool true)) ∧ getData h 2 b!"j" = .ok (some (.int .int 2)) ∧ getData h 2 b!"x" = .ok none ∧
    getDataBool h 2 b!"k" = .ok (some true) ∧ getDataInt h 2 b!"k" = .ok none := by decide

/-! ## C29 -/

/-- **C29** Every method gives on a wrapper, nested any number of times, the answer it gives on the wrapped dataset, and changes memory in
the same way. (Clone: `C29_clone_of_wrapper`.) -/
theorem C29_wrapper_is_transparent (x : Ext) (n : Nat) {h : Heap} (wf : WF h) {a t : Addr} (w : Wraps h a t) (key : Str) (v : Val) (k : SliceKind) :
    get h a key = get h t key ∧ getDataset h a key = getDataset h t key ∧ getCollection h a key = getCollection h t key ∧
    getString x n h a key = getString x n h t key ∧ getBool h a key = getBool h t key ∧ getInt x h a key = getInt x h t key ∧
    getFloat h a key = getFloat h t key ∧ getTime h a key = getTime h t key ∧ getSlice k h a key = getSlice k h t key ∧
    set h a key v = set h t key v ∧ del h a key = del h t key ∧
    dsString x n h a = dsString x n h t ∧ dsGoString x n h a = dsGoString x n h t := by
  have ha := (target_iff wf).2 w
  obtain ⟨m, hm⟩ := wraps_ds w
  have ht := (target_iff wf).2 (Wraps.plain hm)
  have hg : get h a key = get h t key := by rw [get_go, get_go h t, ha, ht]
  refine ⟨hg, ?_, ?_, ?_, ?_, ?_, ?_, ?_, ?_, ?_, ?_, ?_, ?_⟩
  · unfold getDataset; rw [hg]
  · unfold getCollection; rw [hg]
  · unfold getString; rw [hg]
  · unfold getBool; rw [hg]
  · unfold getInt; rw [hg]
  · unfold getFloat; rw [hg]
  · unfold getTime; rw [hg]
  · unfold getSlice; rw [hg]
  · unfold set; rw [ha, ht]
  · unfold del; rw [ha, ht]
  · unfold dsString; rw [ha, ht]
  · unfold dsGoString; rw [ha, ht]

/-- **C29** Printing a wrapper inside another value prints the wrapped dataset. -/
theorem C29_wrapper_prints_as_wrapped (x : Ext) (n : Nat) {h : Heap} (wf : WF h) {a t : Addr} (w : Wraps h a t) (hat : a ≠ t) :
    sprint x (n + 1) h (.ptr a) = sprint x n h (.ptr t) ∧ goSprint x (n + 1) h (.ptr a) = goSprint x n h (.ptr t) := by
  have ha := (target_iff wf).2 w
  cases w with
  | plain => exact absurd rfl hat
  | wrapper hb => simp only [sprint, goSprint, hb, ha, and_self]

/-- **C29** `NewXDatasetTS` wraps the dataset it is given, nested wrappers included: the new object is not one that existed before, it
answers as that dataset does, and what was in memory is unchanged. -/
theorem C29_new_wrapper_wraps {h : Heap} (wf : WF h) {a t : Addr} (w : Wraps h a t) (key : Str) :
    Wraps (newXDatasetTS h (some a)).1 (newXDatasetTS h (some a)).2 t ∧
    get (newXDatasetTS h (some a)).1 (newXDatasetTS h (some a)).2 key = get (newXDatasetTS h (some a)).1 t key ∧
    h[(newXDatasetTS h (some a)).2]? = none ∧ ∀ b, b < h.length → (newXDatasetTS h (some a)).1[b]? = h[b]? := by
  have old : ∀ b, b < h.length → (newXDatasetTS h (some a)).1[b]? = h[b]? := fun b hb => List.getElem?_append_left hb
  have lt : ∀ {b : Addr} {o : Obj}, h[b]? = some o → b < h.length := fun e => (List.getElem?_eq_some_iff.1 e).1
  have grow : ∀ {b t : Addr}, Wraps h b t → Wraps (newXDatasetTS h (some a)).1 b t := by
    intro b t w
    induction w with
    | plain e => exact .plain ((old _ (lt e)).trans e)
    | wrapper e _ ih => exact .wrapper ((old _ (lt e)).trans e) ih
  have new : Wraps (newXDatasetTS h (some a)).1 (newXDatasetTS h (some a)).2 t :=
    .wrapper (List.getElem?_concat_length ..) (grow w)
  have isd : IsDataset h a := by
    cases w with
    | plain e => exact .inl ⟨_, e⟩
    | wrapper e _ => exact .inr ⟨_, e⟩
  have wf' : WF (newXDatasetTS h (some a)).1 := (Call.run_wf wf (.newTS (some a)) isd).1
  obtain ⟨m, hm⟩ := wraps_ds new
  have hg : get (newXDatasetTS h (some a)).1 (newXDatasetTS h (some a)).2 key = get (newXDatasetTS h (some a)).1 t key := by
    rw [get_go, get_go _ t, (target_iff wf').2 new, (target_iff wf').2 (.plain hm)]
  exact ⟨new, hg, List.getElem?_eq_none (Nat.le_refl _), old⟩

/-- Non-vacuity: wrapping the wrapper of the sample. -/
example : let r := newXDatasetTS sample (some 4)
    r.2 = 5 ∧ Wraps sample 4 0 ∧ get r.1 r.2 b!"c>0>k" = .ok (some (.bool true)) :=
  ⟨rfl, .wrapper rfl (.plain rfl), by decide⟩

/-- Non-vacuity: a double wrapper. -/
example : Wraps (sample ++ [.dsTS (some 4)]) 5 0 ∧ get (sample ++ [.dsTS (some 4)]) 5 b!"c>0>k" = .ok (some (.bool true)) :=
  ⟨.wrapper rfl (.wrapper rfl (.plain rfl)), by decide⟩

end Xcore.Dataset
