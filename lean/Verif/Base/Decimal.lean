import Verif.Base.Str

/-!
# Decimal notation: `strconv.Itoa` and `strconv.Atoi`
-/

namespace Xcore

theorem digitsVal_append (acc : Nat) (l : Str) (d : UInt8) : digitsVal acc (l ++ [d]) = digitsVal acc l * 10 + (d.toNat - 48) := by
  rw [digitsVal, digitsVal, List.foldl_append, List.foldl_cons, List.foldl_nil]

theorem digit_toNat {n : Nat} (h : n < 10) : (UInt8.ofNat (48 + n)).toNat = 48 + n := by
  rw [UInt8.toNat_ofNat']; omega

theorem revDigits_spec (f n : Nat) (h : n < f) :
    digitsVal 0 (revDigits f n).reverse = n ∧ (revDigits f n) ≠ [] ∧ ∀ c ∈ revDigits f n, isDigit c = true := by
  induction f generalizing n with
  | zero => omega
  | succ f ih =>
    have hd := digit_toNat (n := n % 10) (by omega)
    have hdig : isDigit (UInt8.ofNat (48 + n % 10)) = true := by
      unfold isDigit; rw [hd]; simp; omega
    simp only [revDigits, List.reverse_cons]
    rw [digitsVal_append, hd]
    by_cases hz : n / 10 = 0
    · rw [if_pos hz]
      have h0 : digitsVal 0 [] = 0 := by rw [digitsVal, List.foldl_nil]
      rw [List.reverse_nil, h0]
      refine ⟨by omega, by simp, ?_⟩
      intro c hc
      simp only [List.mem_singleton] at hc
      rw [hc]; exact hdig
    · rw [if_neg hz]
      obtain ⟨h1, h2, h3⟩ := ih (n / 10) (by omega)
      rw [h1]
      refine ⟨by omega, by simp, ?_⟩
      intro c hc
      rcases List.mem_cons.1 hc with rfl | hc
      · exact hdig
      · exact h3 c hc

theorem atoiDigits_natToStr (n : Nat) : atoiDigits (natToStr n) = some n := by
  obtain ⟨h1, h2, h3⟩ := revDigits_spec (n + 1) n (by omega)
  unfold atoiDigits natToStr
  rw [if_pos, h1]
  exact ⟨by simpa using h2, by simpa using h3⟩

theorem natToStr_cons (n : Nat) : ∃ c cs, natToStr n = c :: cs ∧ isDigit c = true := by
  obtain ⟨_, h2, h3⟩ := revDigits_spec (n + 1) n (by omega)
  unfold natToStr
  cases hr : (revDigits (n + 1) n).reverse with
  | nil => simp at hr; exact absurd hr h2
  | cons c cs => exact ⟨c, cs, rfl, h3 c (by have : c ∈ (revDigits (n + 1) n).reverse := by rw [hr]; simp
                                             simpa using this)⟩

theorem atoi_eq (s : Str) (i : Int) : atoi s = some i ↔
    ∃ n, atoiDigits (atoiSign s).2 = some n ∧ i = (if (atoiSign s).1 then -(n : Int) else (n : Int)) ∧ -(2 ^ 63 : Int) ≤ i ∧ i < (2 ^ 63 : Int) := by
  unfold atoi
  cases atoiDigits (atoiSign s).2 with
  | none => simp
  | some n =>
    simp only [Option.some.injEq, exists_eq_left']
    generalize (if (atoiSign s).1 = true then -(n : Int) else (n : Int)) = v
    constructor
    · intro h
      split at h
      · rename_i hr; cases h; exact ⟨rfl, hr⟩
      · cases h
    · rintro ⟨rfl, hr⟩; rw [if_pos hr]

/-- `strconv.Atoi` reads back what `strconv.Itoa` writes. -/
theorem atoi_itoa (i : Int) (h : -(2 ^ 63 : Int) ≤ i ∧ i < (2 ^ 63 : Int)) : atoi (itoa i) = some i := by
  rw [atoi_eq]
  cases i with
  | ofNat n =>
    obtain ⟨c, cs, hc, hd⟩ := natToStr_cons n
    have h45 : c ≠ 45 := by rintro rfl; revert hd; decide
    have h43 : c ≠ 43 := by rintro rfl; revert hd; decide
    have hs : atoiSign (itoa (Int.ofNat n)) = (false, natToStr n) := by
      unfold itoa; simp only; rw [hc]; simp [atoiSign, h45, h43]
    rw [hs]
    exact ⟨n, atoiDigits_natToStr n, rfl, h⟩
  | negSucc n =>
    have hs : atoiSign (itoa (Int.negSucc n)) = (true, natToStr (n + 1)) := rfl
    rw [hs]
    exact ⟨n + 1, atoiDigits_natToStr _, by simp only [if_true]; omega, h⟩

/-- What `strconv.Atoi` accepts: an optional sign and at least one decimal digit, in the range of a 64-bit integer. -/
theorem atoi_iff (s : Str) (i : Int) :
    atoi s = some i ↔ ∃ sign ds, s = sign ++ ds ∧ (sign = [] ∨ sign = b!"+" ∨ sign = b!"-") ∧ ds ≠ [] ∧ (∀ c ∈ ds, isDigit c = true) ∧
      i = (if sign = b!"-" then -(digitsVal 0 ds : Int) else (digitsVal 0 ds : Int)) ∧ -(2 ^ 63 : Int) ≤ i ∧ i < (2 ^ 63 : Int) := by
  have hdig : ∀ ds n, atoiDigits ds = some n ↔ ds ≠ [] ∧ (∀ c ∈ ds, isDigit c = true) ∧ n = digitsVal 0 ds := by
    intro ds n
    unfold atoiDigits
    split
    · rename_i h
      simp only [Option.some.injEq]
      constructor
      · rintro rfl; exact ⟨h.1, by simpa using h.2, rfl⟩
      · rintro ⟨_, _, rfl⟩; rfl
    · rename_i h
      simp only [reduceCtorEq, false_iff]
      rintro ⟨h1, h2, _⟩
      exact h ⟨h1, by simpa using h2⟩
  rw [atoi_eq]
  constructor
  · rintro ⟨n, h1, h2, h3⟩
    obtain ⟨g1, g2, g3⟩ := (hdig _ _).1 h1
    subst g3
    cases s with
    | nil => exact absurd rfl g1
    | cons c cs =>
      by_cases h45 : c = 45
      · subst h45; exact ⟨b!"-", cs, rfl, Or.inr (Or.inr rfl), g1, g2, h2, h3⟩
      · by_cases h43 : c = 43
        · subst h43; exact ⟨b!"+", cs, rfl, Or.inr (Or.inl rfl), g1, g2, h2, h3⟩
        · have hs : atoiSign (c :: cs) = (false, c :: cs) := by simp [atoiSign, h45, h43]
          rw [hs] at g1 g2 h2
          exact ⟨[], c :: cs, rfl, Or.inl rfl, g1, g2, h2, h3⟩
  · rintro ⟨sign, ds, rfl, hs, hne, hall, hi, hr⟩
    refine ⟨digitsVal 0 ds, ?_, ?_, hr⟩
    all_goals
      have hd : atoiDigits ds = some (digitsVal 0 ds) := (hdig _ _).2 ⟨hne, hall, rfl⟩
      have hsign : atoiSign (sign ++ ds) = (decide (sign = b!"-"), ds) := by
        rcases hs with rfl | rfl | rfl
        · cases ds with
          | nil => exact absurd rfl hne
          | cons c cs =>
            have hc := hall c (by simp)
            have h45 : c ≠ 45 := by rintro rfl; revert hc; decide
            have h43 : c ≠ 43 := by rintro rfl; revert hc; decide
            simp [atoiSign, h45, h43]
        · rfl
        · rfl
      rw [hsign]
      first | exact hd | (rw [hi]; simp)

end Xcore
