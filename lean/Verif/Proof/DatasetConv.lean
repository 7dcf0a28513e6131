import Verif.Proof.Numbers

namespace Xcore.Dataset

theorem trunc_eq {s r : Int} {P : Nat} (hP : 0 < P)
    (hi : if 0 ≤ s then r * P ≤ s ∧ s < (r + 1) * P else (r - 1) * P < s ∧ s ≤ r * P) :
    r = if s < 0 then -((s.natAbs / P : Nat) : Int) else ((s.natAbs / P : Nat) : Int) := by
  have hP' : (0 : Int) < P := by omega
  split at hi
  · rename_i hs
    rw [if_neg (by omega)]
    obtain ⟨k, rfl⟩ := Int.eq_ofNat_of_zero_le hs
    simp only [Int.natAbs_natCast, Int.natCast_ediv]
    have h1 := (Int.le_ediv_iff_mul_le hP').2 hi.1
    have h2 := (Int.ediv_lt_iff_lt_mul hP').2 hi.2
    omega
  · rename_i hs
    rw [if_pos (by omega)]
    obtain ⟨k, hk⟩ := Int.eq_ofNat_of_zero_le (show 0 ≤ -s by omega)
    have hn : s.natAbs = k := by omega
    rw [hn, Int.natCast_ediv]
    have e1 : (-r) * (P : Int) = -(r * P) := Int.neg_mul r P
    have e2 : (-r + 1) * (P : Int) = -((r - 1) * P) := by rw [← Int.neg_mul]; congr 1; omega
    have h1 := (Int.le_ediv_iff_mul_le (b := (k : Int)) (a := -r) hP').2 (by omega)
    have h2 := (Int.ediv_lt_iff_lt_mul (a := (k : Int)) (b := -r + 1) hP').2 (by omega)
    omega

/-- The truncation of the model is the integer part. -/
theorem f64ToInt_of {x : Ext} {b : UInt64} {r : Int} (hf : f64Finite b) (hi : IntegerPart (f64Scaled b) r) (hr : FitsInt r) :
    f64ToInt x b = r := by
  obtain ⟨h1, h2, h3⟩ := f64Scaled_abs b
  unfold f64ToInt
  rw [if_neg (show ¬ f64Exp b = 2 ^ 11 - 1 from hf)]
  unfold IntegerPart at hi
  have hpos : 0 < (2 : Nat) ^ 1074 := Nat.two_pow_pos _
  have hcast : ((2 ^ 1074 : Nat) : Int) = (2 : Int) ^ 1074 := Int.natCast_pow 2 1074
  generalize (2 : Nat) ^ 1074 = P at *
  rw [← hcast] at hi
  have key := trunc_eq hpos hi
  rw [h1] at key
  unfold FitsInt at hr
  simp only
  generalize f64Mant b * 2 ^ f64Pow b = q at *
  have hneg : (if f64Sign b = true then -((q / P : Nat) : Int) else ((q / P : Nat) : Int)) = r := by
    rcases Int.lt_trichotomy (f64Scaled b) 0 with h | h | h
    · rw [if_pos h] at key; rw [if_pos (h2 h), key]
    · rw [if_neg (by omega)] at key
      have : q = 0 := by omega
      subst this
      simp at key ⊢
      omega
    · rw [if_neg (by omega)] at key; rw [if_neg (by rw [h3 h]; decide), key]
  rw [hneg, if_pos hr]

theorem toInt_of {x : Ext} {v : Val} {r : Int} (e : ToInt v r) : toInt x v = some r := by
  induction e with
  | true => rfl
  | false => rfl
  | @int k n hn =>
    have h2 : ¬ (9223372036854775808 : Int) ≤ n := by have := hn.2; omega
    cases k <;> simp [toInt, wrap64, h2]
  | f64 hf hi hr => simp [toInt, f64ToInt_of hf hi hr]
  | @f32 b r hf hi hr =>
    obtain ⟨_, h2, h3, _⟩ := f32to64_same b
    simp [toInt, f64ToInt_of (h2.2 hf) (by rw [h3 hf]; exact hi) hr]
  | zeroTime => rfl
  | @time ns r hz h1 h2 =>
    simp only [toInt, if_neg hz, unix]
    rw [Int.fdiv_eq_ediv_of_nonneg _ (by decide)]
    congr 1
    omega

theorem f64NonZero_iff {b : UInt64} : f64NonZero b = false ↔ f64Finite b ∧ f64Scaled b = 0 := by
  have hlt := b.toNat_lt
  have h1 := (f64Scaled_abs b).1
  have hz : f64Scaled b = 0 ↔ f64Mant b = 0 := by
    constructor
    · intro h
      rw [h] at h1
      have hp : 0 < 2 ^ f64Pow b := Nat.pow_pos (by decide)
      rcases Nat.mul_eq_zero.1 h1.symm with h | h
      · exact h
      · omega
    · intro h
      rw [h, Nat.zero_mul] at h1
      omega
  rw [hz]
  unfold f64NonZero f64Finite f64Mant f64Frac f64Exp
  simp only [bne_eq_false_iff_eq]
  constructor
  · intro h
    have e1 : b.toNat / 2 ^ 52 % 2 ^ 11 = 0 := by omega
    rw [e1]
    exact ⟨by decide, by simp; omega⟩
  · rintro ⟨_, h⟩
    split at h
    · omega
    · omega

theorem f32NonZero_iff {b : UInt32} : f32NonZero b = false ↔ b = 0 ∨ b = 0x80000000 := by
  have hlt := b.toNat_lt
  unfold f32NonZero
  simp only [bne_eq_false_iff_eq]
  constructor
  · intro h
    have : b.toNat = 0 ∨ b.toNat = 2 ^ 31 := by omega
    rcases this with h | h
    · left; exact UInt32.toNat_inj.1 h
    · right; exact UInt32.toNat_inj.1 h
  · rintro (rfl | rfl) <;> decide

theorem toBool_iff {v : Val} : toBool v = false ↔ IsFalse v := by
  constructor
  · intro h
    cases v with
    | nil => exact .nil
    | bool b => simp [toBool] at h; subst h; exact .bool
    | int k n => simp [toBool] at h; subst h; exact .int
    | f32 b => rcases f32NonZero_iff.1 h with rfl | rfl; exact .f32Pos; exact .f32Neg
    | f64 b => have := f64NonZero_iff.1 h; exact .f64 this.1 this.2
    | time ns => simp [toBool] at h; subst h; exact .time
    | str s => cases h
    | slice k a => cases h
    | ptr a => cases h
    | other t => cases h
  · intro h
    cases h with
    | bool => rfl
    | int => rfl
    | f64 h1 h2 => exact f64NonZero_iff.2 ⟨h1, h2⟩
    | f32Pos => decide
    | f32Neg => decide
    | time => rfl
    | nil => rfl

end Xcore.Dataset
