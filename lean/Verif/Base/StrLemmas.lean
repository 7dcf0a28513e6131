import Verif.Base.AMap

/-! # Facts about the string functions: sorting, splitting, joining -/

namespace Xcore

/-! ## Order -/

theorem strLe_refl (a : Str) : strLe a a = true := by
  induction a with
  | nil => rfl
  | cons x xs ih => simp [strLe, ih]

theorem strLe_total (a b : Str) : strLe a b = true ∨ strLe b a = true := by
  induction a generalizing b with
  | nil => left; rfl
  | cons x xs ih =>
    cases b with
    | nil => right; rfl
    | cons y ys =>
      simp only [strLe]
      rcases Nat.lt_trichotomy x.toNat y.toNat with h | h | h
      · left; rw [if_pos h]
      · rw [h]; simpa using ih ys
      · right; rw [if_pos h]

theorem strLe_trans {a b c : Str} (h1 : strLe a b = true) (h2 : strLe b c = true) : strLe a c = true := by
  induction a generalizing b c with
  | nil => rfl
  | cons x xs ih =>
    cases b with
    | nil => simp [strLe] at h1
    | cons y ys =>
      cases c with
      | nil => simp [strLe] at h2
      | cons z zs =>
        simp only [strLe] at h1 h2 ⊢
        rcases Nat.lt_trichotomy x.toNat y.toNat with h | h | h
        · rcases Nat.lt_trichotomy y.toNat z.toNat with h' | h' | h'
          · rw [if_pos (by omega)]
          · rw [if_pos (by omega)]
          · rw [if_neg (by omega), if_pos h'] at h2; cases h2
        · rw [if_neg (by omega), if_neg (by omega)] at h1
          rcases Nat.lt_trichotomy y.toNat z.toNat with h' | h' | h'
          · rw [if_pos (by omega)]
          · rw [if_neg (by omega), if_neg (by omega)] at h2 ⊢
            exact ih h1 h2
          · rw [if_neg (by omega), if_pos h'] at h2; cases h2
        · rw [if_neg (by omega), if_pos h] at h1; cases h1

theorem strLe_antisymm {a b : Str} (h1 : strLe a b = true) (h2 : strLe b a = true) : a = b := by
  induction a generalizing b with
  | nil =>
    cases b with
    | nil => rfl
    | cons y ys => simp [strLe] at h2
  | cons x xs ih =>
    cases b with
    | nil => simp [strLe] at h1
    | cons y ys =>
      simp only [strLe] at h1 h2
      rcases Nat.lt_trichotomy x.toNat y.toNat with h | h | h
      · rw [if_neg (by omega), if_pos h] at h2; cases h2
      · rw [if_neg (by omega), if_neg (by omega)] at h1 h2
        rw [ih h1 h2, UInt8.toNat_inj.1 h]
      · rw [if_neg (by omega), if_pos h] at h1; cases h1

/-- Sorted by Go's string order. -/
def SortedStrs (l : List Str) : Prop := l.Pairwise (fun a b => strLe a b = true)

theorem insertSorted_perm (x : Str) (l : List Str) : (insertSorted x l).Perm (x :: l) := by
  induction l with
  | nil => exact List.Perm.refl _
  | cons y ys ih =>
    simp only [insertSorted]
    split
    · exact List.Perm.refl _
    · exact (List.Perm.cons y ih).trans (List.Perm.swap x y ys)

theorem sortStrs_perm (l : List Str) : (sortStrs l).Perm l := by
  induction l with
  | nil => exact List.Perm.refl _
  | cons x l ih => exact (insertSorted_perm x _).trans (List.Perm.cons x ih)

theorem insertSorted_sorted (x : Str) {l : List Str} (h : SortedStrs l) : SortedStrs (insertSorted x l) := by
  induction l with
  | nil => simp [insertSorted, SortedStrs]
  | cons y ys ih =>
    simp only [insertSorted]
    have hy := List.pairwise_cons.1 h
    split
    · rename_i hxy
      refine List.pairwise_cons.2 ⟨?_, h⟩
      intro b hb
      rcases List.mem_cons.1 hb with rfl | hb
      · exact hxy
      · exact strLe_trans hxy (hy.1 b hb)
    · rename_i hxy
      refine List.pairwise_cons.2 ⟨?_, ih hy.2⟩
      intro b hb
      rcases List.mem_cons.1 ((insertSorted_perm x ys).mem_iff.1 hb) with rfl | hb
      · exact (strLe_total y b).resolve_right hxy
      · exact hy.1 b hb

theorem sortStrs_sorted (l : List Str) : SortedStrs (sortStrs l) := by
  induction l with
  | nil => simp [sortStrs, SortedStrs]
  | cons x l ih => exact insertSorted_sorted x ih

theorem sorted_perm_unique {l m : List Str} (hl : SortedStrs l) (hm : SortedStrs m) (hp : l.Perm m) : l = m := by
  induction l generalizing m with
  | nil => exact (List.Perm.nil_eq hp)
  | cons x l ih =>
    cases m with
    | nil => exact absurd hp.symm.nil_eq (by simp)
    | cons y m =>
      have hx := List.pairwise_cons.1 hl
      have hy := List.pairwise_cons.1 hm
      have hxy : x = y := by
        have h1 : x ∈ y :: m := hp.mem_iff.1 (by simp)
        have h2 : y ∈ x :: l := hp.mem_iff.2 (by simp)
        rcases List.mem_cons.1 h1 with h | h
        · exact h
        · rcases List.mem_cons.1 h2 with h' | h'
          · exact h'.symm
          · exact strLe_antisymm (hx.1 y h') (hy.1 x h)
      subst hxy
      rw [ih hx.2 hy.2 (List.Perm.cons_inv hp)]

/-- Sorting is determined by the multiset of strings, whatever the algorithm: any sorted rearrangement is `sortStrs`. -/
theorem sortStrs_unique {l m : List Str} (hm : SortedStrs m) (hp : m.Perm l) : m = sortStrs l :=
  sorted_perm_unique hm (sortStrs_sorted l) (hp.trans (sortStrs_perm l).symm)

theorem sortStrs_congr {l m : List Str} (hp : l.Perm m) : sortStrs l = sortStrs m :=
  sortStrs_unique (sortStrs_sorted l) ((sortStrs_perm l).trans hp)

theorem sortStrs_length (l : List Str) : (sortStrs l).length = l.length := (sortStrs_perm l).length_eq

theorem mem_sortStrs {x : Str} {l : List Str} : x ∈ sortStrs l ↔ x ∈ l := (sortStrs_perm l).mem_iff

/-! ## Split and join -/

theorem split_ne_nil (sep : UInt8) (s : Str) : split sep s ≠ [] := by
  cases s with
  | nil => simp [split]
  | cons c cs => simp only [split]; split; simp; split <;> simp

theorem split_cons_sep (sep : UInt8) (s : Str) : split sep (sep :: s) = [] :: split sep s := by simp [split]

theorem split_cons_ne {sep c : UInt8} (h : c ≠ sep) {s p : Str} {ps : List Str} (hs : split sep s = p :: ps) :
    split sep (c :: s) = (c :: p) :: ps := by simp [split, h, hs]

theorem join_split (sep : UInt8) (s : Str) : join [sep] (split sep s) = s := by
  induction s with
  | nil => rfl
  | cons c cs ih =>
    cases hs : split sep cs with
    | nil => exact absurd hs (split_ne_nil _ _)
    | cons p ps =>
      rw [hs] at ih
      by_cases h : c = sep
      · subst h; rw [split_cons_sep, hs]; simp [join, ih]
      · rw [split_cons_ne h hs]
        cases ps with
        | nil => simp only [join] at ih ⊢; rw [ih]
        | cons q qs => simp only [join, List.cons_append] at ih ⊢; rw [ih]

theorem mem_split_not_sep {sep : UInt8} {s p : Str} (h : p ∈ split sep s) : sep ∉ p := by
  induction s generalizing p with
  | nil => simp only [split, List.mem_singleton] at h; subst h; simp
  | cons c cs ih =>
    cases hs : split sep cs with
    | nil => exact absurd hs (split_ne_nil _ _)
    | cons q qs =>
      rw [hs] at ih
      by_cases hc : c = sep
      · subst hc; rw [split_cons_sep, hs] at h
        rcases List.mem_cons.1 h with rfl | h
        · simp
        · exact ih h
      · rw [split_cons_ne hc hs] at h
        rcases List.mem_cons.1 h with rfl | h
        · simp only [List.mem_cons, not_or]
          exact ⟨fun e => hc e.symm, ih (by simp)⟩
        · exact ih (by simp [h])

theorem split_of_not_mem {sep : UInt8} {s : Str} (h : sep ∉ s) : split sep s = [s] := by
  induction s with
  | nil => rfl
  | cons c cs ih =>
    simp only [List.mem_cons, not_or] at h
    rw [split_cons_ne (fun e => h.1 e.symm) (ih h.2)]

theorem split_append_sep {sep : UInt8} {p : Str} (h : sep ∉ p) (s : Str) : split sep (p ++ sep :: s) = p :: split sep s := by
  induction p with
  | nil => exact split_cons_sep sep s
  | cons c cs ih =>
    simp only [List.mem_cons, not_or] at h
    rw [List.cons_append, split_cons_ne (fun e => h.1 e.symm) (ih h.2)]

theorem split_join {sep : UInt8} {ps : List Str} (hne : ps ≠ []) (h : ∀ p ∈ ps, sep ∉ p) : split sep (join [sep] ps) = ps := by
  induction ps with
  | nil => exact absurd rfl hne
  | cons p ps ih =>
    cases ps with
    | nil => exact split_of_not_mem (h p (by simp))
    | cons q qs =>
      simp only [join, List.append_assoc, List.singleton_append]
      rw [split_append_sep (h p (by simp)), ih (by simp) (fun p hp => h p (by simp [hp]))]

theorem split_tail_join {sep : UInt8} {s p q : Str} {ps : List Str} (h : split sep s = p :: q :: ps) :
    split sep (join [sep] (q :: ps)) = q :: ps :=
  split_join (by simp) (fun x hx => mem_split_not_sep (s := s) (by rw [h]; simp [List.mem_cons.1 hx]))

theorem split_length_one_iff (sep : UInt8) (s : Str) : (split sep s).length = 1 ↔ sep ∉ s := by
  constructor
  · intro h
    cases hs : split sep s with
    | nil => rw [hs] at h; simp at h
    | cons p ps =>
      rw [hs] at h
      have : ps = [] := List.eq_nil_of_length_eq_zero (by simpa using h)
      subst this
      have h2 : p = s := by rw [← join_split sep s, hs]; rfl
      rw [← h2]
      exact mem_split_not_sep (s := s) (by rw [hs]; simp)
  · intro h; rw [split_of_not_mem h]; rfl

theorem indexByte_eq_none {c : UInt8} {s : Str} : indexByte c s = none ↔ c ∉ s := by
  induction s with
  | nil => simp [indexByte]
  | cons d ds ih =>
    simp only [indexByte]
    split
    · rename_i h; simp [h]
    · rename_i h
      simp only [Option.map_eq_none_iff, ih, List.mem_cons, not_or]
      exact ⟨fun hh => ⟨fun e => h e.symm, hh⟩, fun hh => hh.2⟩

theorem indexByte_eq_some {c : UInt8} {s : Str} {i : Nat} :
    indexByte c s = some i ↔ ∃ a b, s = a ++ c :: b ∧ c ∉ a ∧ a.length = i := by
  induction s generalizing i with
  | nil => simp [indexByte]
  | cons d ds ih =>
    simp only [indexByte]
    split
    · rename_i h
      subst h
      constructor
      · intro hh; cases hh; exact ⟨[], ds, rfl, by simp, rfl⟩
      · rintro ⟨a, b, h1, h2, h3⟩
        cases a with
        | nil => simp only [List.length_nil] at h3; rw [← h3]
        | cons x xs =>
          simp only [List.cons_append, List.cons.injEq] at h1
          rw [h1.1] at h2; simp at h2
    · rename_i h
      simp only [Option.map_eq_some_iff, ih]
      constructor
      · rintro ⟨j, ⟨a, b, h1, h2, h3⟩, h4⟩
        refine ⟨d :: a, b, by rw [h1]; rfl, ?_, by simp [h3, ← h4]⟩
        simp only [List.mem_cons, not_or]; exact ⟨fun e => h e.symm, h2⟩
      · rintro ⟨a, b, h1, h2, h3⟩
        cases a with
        | nil => simp only [List.nil_append, List.cons.injEq] at h1; exact absurd h1.1 h
        | cons x xs =>
          simp only [List.cons_append, List.cons.injEq] at h1
          simp only [List.mem_cons, not_or] at h2
          exact ⟨xs.length, ⟨xs, b, h1.2, h2.2, rfl⟩, by simpa using h3⟩

end Xcore
