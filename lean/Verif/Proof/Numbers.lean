import Verif.Proof.Dataset

/-! # Conversions to float64 -/

namespace Xcore.Dataset

theorem f64Bits_toNat {neg : Bool} {m : Nat} (h : m < 2 ^ 63) : (f64Bits neg m).toNat = if neg then 2 ^ 63 + m else m := by
  unfold f64Bits
  rw [UInt64.toNat_ofNat']
  apply Nat.mod_eq_of_lt
  split <;> omega

theorem f64Scaled_abs (b : UInt64) : (f64Scaled b).natAbs = f64Mant b * 2 ^ f64Pow b ∧ (f64Scaled b < 0 → f64Sign b = true) ∧
    (0 < f64Scaled b → f64Sign b = false) := by
  have hlt := b.toNat_lt
  have h63 : b.toNat / 2 ^ 63 = 1 ↔ 2 ^ 63 ≤ b.toNat := by omega
  unfold f64Scaled f64Sign f64Mant f64Pow f64Exp f64Frac
  simp only
  generalize hm : (if b.toNat / 2 ^ 52 % 2 ^ 11 = 0 then b.toNat % 2 ^ 52 else (2 ^ 52 + b.toNat % 2 ^ 52) * 2 ^ (b.toNat / 2 ^ 52 % 2 ^ 11 - 1)) = m
  refine ⟨?_, ?_, ?_⟩
  · have : m = (if b.toNat / 2 ^ 52 % 2 ^ 11 = 0 then b.toNat % 2 ^ 52 else 2 ^ 52 + b.toNat % 2 ^ 52) *
        2 ^ (if b.toNat / 2 ^ 52 % 2 ^ 11 = 0 then 0 else b.toNat / 2 ^ 52 % 2 ^ 11 - 1) := by
      rw [← hm]; split <;> simp
    rw [← this]
    split <;> simp
  · intro h
    split at h
    · rename_i h'; simpa using h63.1 h'
    · omega
  · intro h
    split at h
    · omega
    · rename_i h'; rw [h63] at h'; simpa using h'

/-- The number with mantissa `q` (53 binary digits, or the next power of two) and exponent field `E + 1`. -/
theorem bits_mant {neg : Bool} {E q : Nat} (hE : E ≤ 2044) (h1 : 2 ^ 52 ≤ q) (h2 : q ≤ 2 ^ 53) :
    f64Finite (f64Bits neg (E * 2 ^ 52 + q)) ∧ (f64Scaled (f64Bits neg (E * 2 ^ 52 + q)) = if neg then -((q * 2 ^ E : Nat) : Int) else ((q * 2 ^ E : Nat) : Int)) ∧
    (f64Bits neg (E * 2 ^ 52 + q)).toNat % 2 = q % 2 ∧ ((f64Bits neg (E * 2 ^ 52 + q)).toNat / 2 ^ 63 = if neg then 1 else 0) := by
  have hb : (f64Bits neg (E * 2 ^ 52 + q)).toNat = if neg then 2 ^ 63 + (E * 2 ^ 52 + q) else E * 2 ^ 52 + q := f64Bits_toNat (by omega)
  generalize f64Bits neg (E * 2 ^ 52 + q) = b at *
  have hs : b.toNat / 2 ^ 63 = if neg then 1 else 0 := by rw [hb]; split <;> omega
  have hpar : b.toNat % 2 = q % 2 := by rw [hb]; split <;> omega
  unfold f64Finite f64Scaled
  by_cases hq : q < 2 ^ 53
  · have he : b.toNat / 2 ^ 52 % 2 ^ 11 = E + 1 := by rw [hb]; split <;> omega
    have hf : b.toNat % 2 ^ 52 = q - 2 ^ 52 := by rw [hb]; split <;> omega
    refine ⟨by rw [he]; omega, ?_, hpar, hs⟩
    simp only [he, hf, hs]
    rw [if_neg (show ¬ (E + 1 = 0) by omega), Nat.add_sub_cancel, Nat.add_sub_cancel' h1]
    cases neg <;> rfl
  · have hq' : q = 2 ^ 53 := by omega
    subst hq'
    have he : b.toNat / 2 ^ 52 % 2 ^ 11 = E + 2 := by rw [hb]; split <;> omega
    have hf : b.toNat % 2 ^ 52 = 0 := by rw [hb]; split <;> omega
    refine ⟨by rw [he]; omega, ?_, hpar, hs⟩
    simp only [he, hf, hs]
    rw [if_neg (show ¬ (E + 2 = 0) by omega), show E + 2 - 1 = E + 1 from rfl]
    have : (2 ^ 52 + 0) * 2 ^ (E + 1) = 2 ^ 53 * 2 ^ E := by rw [Nat.pow_add 2 E 1, Nat.mul_comm (2 ^ E), ← Nat.mul_assoc]
    rw [this]
    cases neg <;> rfl

/-- A float64 that is at least `2 ^ 52 * 2 ^ E` is a multiple of `2 ^ E`. -/
theorem scaled_multiple (g : UInt64) (E : Nat) : (f64Scaled g).natAbs < 2 ^ 52 * 2 ^ E ∨ ∃ k : Int, f64Scaled g = k * 2 ^ E := by
  unfold f64Scaled
  simp only
  generalize hm : (if g.toNat / 2 ^ 52 % 2 ^ 11 = 0 then g.toNat % 2 ^ 52 else (2 ^ 52 + g.toNat % 2 ^ 52) * 2 ^ (g.toNat / 2 ^ 52 % 2 ^ 11 - 1)) = m
  have hn : (if g.toNat / 2 ^ 63 = 1 then -(m : Int) else (m : Int)).natAbs = m := by split <;> simp
  rw [hn]
  by_cases h : m < 2 ^ 52 * 2 ^ E
  · exact .inl h
  right
  have : ∃ k : Nat, m = k * 2 ^ E := by
    split at hm
    · exfalso
      have h1 : 2 ^ 52 ≤ 2 ^ 52 * 2 ^ E := Nat.le_mul_of_pos_right _ (Nat.two_pow_pos _)
      have h2 := Nat.mod_lt g.toNat (show 0 < 2 ^ 52 by decide)
      omega
    · have hE : E ≤ g.toNat / 2 ^ 52 % 2 ^ 11 - 1 := by
        apply Decidable.byContradiction
        intro hc
        have h2 := Nat.mod_lt g.toNat (show 0 < 2 ^ 52 by decide)
        generalize g.toNat / 2 ^ 52 % 2 ^ 11 - 1 = e at *
        have h3 : 2 ^ (e + 1) ≤ 2 ^ E := Nat.pow_le_pow_right (by decide) (by omega)
        have h4 : (2 ^ 52 + g.toNat % 2 ^ 52) * 2 ^ e < 2 ^ 53 * 2 ^ e := Nat.mul_lt_mul_of_pos_right (by omega) (Nat.two_pow_pos _)
        have h5 : 2 ^ 53 * 2 ^ e = 2 ^ 52 * 2 ^ (e + 1) := by
          rw [Nat.pow_succ 2 e, Nat.mul_comm (2 ^ e) 2, ← Nat.mul_assoc]
        have h6 : 2 ^ 52 * 2 ^ (e + 1) ≤ 2 ^ 52 * 2 ^ E := Nat.mul_le_mul_left _ h3
        omega
      generalize g.toNat / 2 ^ 52 % 2 ^ 11 - 1 = e at *
      refine ⟨(2 ^ 52 + g.toNat % 2 ^ 52) * 2 ^ (e - E), ?_⟩
      rw [← hm, Nat.mul_assoc, ← Nat.pow_add, Nat.sub_add_cancel hE]
  obtain ⟨k, hk⟩ := this
  split
  · exact ⟨-k, by rw [hk, Int.natCast_mul, Int.natCast_pow, Int.neg_mul]; rfl⟩
  · exact ⟨k, by rw [hk, Int.natCast_mul, Int.natCast_pow]; rfl⟩

/-- Rounding to a multiple of `U`: no multiple is nearer, nor anything smaller than `2 ^ 52 * U`. -/
theorem nearest_of {U N Q G : Int} (hU : 0 < U) (h1 : 2 * (N - Q * U).natAbs ≤ U) (h2 : 2 * ((N - Q * U).natAbs : Int) = U → Q % 2 = 0)
    (hN : 2 ^ 52 * U ≤ N) (hG : G.natAbs < 2 ^ 52 * U ∨ ∃ k : Int, G = k * U) :
    (N - Q * U).natAbs ≤ (N - G).natAbs ∧ (G ≠ Q * U → (N - G).natAbs = (N - Q * U).natAbs → Q % 2 = 0) := by
  have mult : ∀ k : Int, (N - Q * U).natAbs ≤ (N - k * U).natAbs ∧ (k * U ≠ Q * U → (N - k * U).natAbs = (N - Q * U).natAbs → Q % 2 = 0) := by
    intro k
    by_cases hk : k = Q
    · subst hk; exact ⟨Nat.le_refl _, fun h => absurd rfl h⟩
    · have hd : U ≤ (k * U - Q * U).natAbs := by
        rw [← Int.sub_mul, Int.natAbs_mul, Int.natCast_mul, Int.natAbs_of_nonneg (Int.le_of_lt hU)]
        have : (1 : Int) ≤ (k - Q).natAbs := by omega
        have := Int.mul_le_mul_of_nonneg_right this (Int.le_of_lt hU)
        omega
      generalize k * U = K at *
      generalize Q * U = M at *
      exact ⟨by omega, fun _ h => h2 (by omega)⟩
  rcases hG with hG | ⟨k, rfl⟩
  · have := (mult (2 ^ 52)).1
    generalize Q * U = M at *
    generalize (2 : Int) ^ 52 * U = W at *
    exact ⟨by omega, fun _ h => by omega⟩
  · exact mult k

/-- What the conversion of an integer computes. -/
theorem intToF64_spec {n : Int} (hn : n.natAbs < 2 ^ 64) (h0 : n ≠ 0) :
    ∃ E q : Nat, E ≤ 2044 ∧ 2 ^ 52 ≤ q ∧ q ≤ 2 ^ 53 ∧ intToF64 n = f64Bits (decide (n < 0)) (E * 2 ^ 52 + q) ∧
      2 * ((n.natAbs : Int) * 2 ^ 1074 - (q : Int) * 2 ^ E).natAbs ≤ (2 : Int) ^ E ∧
      (2 * ((((n.natAbs : Int) * 2 ^ 1074 - (q : Int) * 2 ^ E).natAbs : Nat) : Int) = (2 : Int) ^ E → (q : Int) % 2 = 0) ∧
      (2 : Int) ^ 52 * 2 ^ E ≤ (n.natAbs : Int) * 2 ^ 1074 ∧ (n.natAbs ≤ 2 ^ 53 → (n.natAbs : Int) * 2 ^ 1074 = (q : Int) * 2 ^ E) ∧
      (n.natAbs : Int) * 2 ^ 1074 ≤ (2 : Int) ^ 53 * 2 ^ E := by
  unfold intToF64
  simp only
  have hm0 : n.natAbs ≠ 0 := by omega
  rw [if_neg hm0]
  generalize n.natAbs = m at *
  have hl := Nat.log2_self_le hm0
  have hu := Nat.lt_log2_self (n := m)
  generalize m.log2 = L at *
  have hL : L < 64 := by
    apply Decidable.byContradiction
    intro hc
    have := Nat.pow_le_pow_right (n := 2) (by decide) (show 64 ≤ L by omega)
    omega
  by_cases h52 : L ≤ 52
  · rw [if_pos h52]
    have e1 : (m * 2 ^ (52 - L)) * 2 ^ (1022 + L) = m * 2 ^ 1074 := by
      rw [Nat.mul_assoc, ← Nat.pow_add]; congr 2; omega
    have e2 : 2 ^ L * 2 ^ (52 - L) = 2 ^ 52 := by rw [← Nat.pow_add]; congr 1; omega
    have e3 : 2 ^ (L + 1) * 2 ^ (52 - L) = 2 ^ 53 := by rw [← Nat.pow_add]; congr 1; omega
    have b1 : 2 ^ 52 ≤ m * 2 ^ (52 - L) := by rw [← e2]; exact Nat.mul_le_mul_right _ hl
    have b2 : m * 2 ^ (52 - L) ≤ 2 ^ 53 := by rw [← e3]; exact Nat.mul_le_mul_right _ (Nat.le_of_lt hu)
    have e1' : ((m * 2 ^ (52 - L) : Nat) : Int) * 2 ^ (1022 + L) = (m : Int) * 2 ^ 1074 := by
      have := congrArg (Int.ofNat) e1
      simp only [Int.ofNat_eq_natCast, Int.natCast_mul, Int.natCast_pow] at this ⊢
      exact this
    refine ⟨1022 + L, m * 2 ^ (52 - L), by omega, b1, b2, rfl, ?_, ?_, ?_, ?_, ?_⟩
    · rw [e1', Int.sub_self]; exact Int.le_of_lt (Int.pow_pos (by decide))
    · rw [e1', Int.sub_self]
      intro h
      have : (0 : Int) < 2 ^ (1022 + L) := Int.pow_pos (by decide)
      simp only [Int.natAbs_zero, Int.natCast_zero, Int.mul_zero] at h
      omega
    · rw [← e1']
      exact Int.mul_le_mul_of_nonneg_right (by omega) (Int.le_of_lt (Int.pow_pos (by decide)))
    · intro _; exact e1'.symm
    · rw [← e1']
      exact Int.mul_le_mul_of_nonneg_right (by omega) (Int.le_of_lt (Int.pow_pos (by decide)))
  · rw [if_neg h52]
    have hu' : 2 ^ L = 2 ^ 52 * 2 ^ (L - 52) := by rw [← Nat.pow_add]; congr 1; omega
    have hu2 : 2 ^ (L + 1) = 2 ^ 53 * 2 ^ (L - 52) := by rw [← Nat.pow_add]; congr 1; omega
    have hE : (2 : Int) ^ (1022 + L) = 2 ^ (L - 52) * 2 ^ 1074 := by rw [← Int.pow_add]; congr 1; omega
    have hup := Nat.two_pow_pos (L - 52)
    have hcast : ((2 ^ (L - 52) : Nat) : Int) = (2 : Int) ^ (L - 52) := Int.natCast_pow 2 (L - 52)
    have heven : L = 53 → 2 ^ (L - 52) = 2 := by rintro rfl; rfl
    have hP : (0 : Int) < 2 ^ 1074 := Int.pow_pos (by decide)
    have hbig : m ≤ 2 ^ 53 → m = 2 ^ 53 ∧ 2 ^ (L - 52) = 2 := by
      intro hm
      have h53 := Nat.pow_le_pow_right (n := 2) (by decide) (show 53 ≤ L by omega)
      have hm' : m = 2 ^ 53 := by omega
      refine ⟨hm', heven ?_⟩
      apply Decidable.byContradiction
      intro hc
      have := Nat.pow_le_pow_right (n := 2) (by decide) (show 54 ≤ L by omega)
      omega
    rw [← hcast] at hE
    generalize 2 ^ (L - 52) = u at *
    have hdm := Nat.div_add_mod m u
    have hr := Nat.mod_lt m hup
    have hq1 : 2 ^ 52 ≤ m / u := (Nat.le_div_iff_mul_le hup).2 (by omega)
    have hq2 : m / u < 2 ^ 53 := (Nat.div_lt_iff_lt_mul hup).2 (by omega)
    generalize hq : m / u = q0 at *
    generalize m % u = r at *
    have hmi : (m : Int) = u * q0 + r := by have := congrArg Int.ofNat hdm; simpa using this.symm
    have key : ∀ q : Nat, (m : Int) * 2 ^ 1074 - q * 2 ^ (1022 + L) = (m - q * u) * 2 ^ 1074 := by
      intro q; rw [hE, ← Int.mul_assoc, ← Int.sub_mul]
    have scale : ∀ d : Int, 2 * d.natAbs ≤ (u : Int) → 2 * ((d * 2 ^ 1074).natAbs : Int) ≤ 2 ^ (1022 + L) := by
      intro d hd
      rw [hE, Int.natAbs_mul, Int.natCast_mul, ← Int.mul_assoc, Int.natAbs_of_nonneg (Int.le_of_lt hP)]
      exact Int.mul_le_mul_of_nonneg_right hd (Int.le_of_lt hP)
    have unscale : ∀ d : Int, 2 * ((d * 2 ^ 1074).natAbs : Int) = 2 ^ (1022 + L) → 2 * (d.natAbs : Int) = u := by
      intro d hd
      rw [hE, Int.natAbs_mul, Int.natCast_mul, ← Int.mul_assoc, Int.natAbs_of_nonneg (Int.le_of_lt hP)] at hd
      exact Int.eq_of_mul_eq_mul_right (by omega) hd
    have lower : (2 : Int) ^ 52 * 2 ^ (1022 + L) ≤ (m : Int) * 2 ^ 1074 := by
      rw [hE, ← Int.mul_assoc]
      exact Int.mul_le_mul_of_nonneg_right (by omega) (Int.le_of_lt hP)
    have upper : (m : Int) * 2 ^ 1074 ≤ (2 : Int) ^ 53 * 2 ^ (1022 + L) := by
      rw [hE, ← Int.mul_assoc]
      exact Int.mul_le_mul_of_nonneg_right (by omega) (Int.le_of_lt hP)
    by_cases hc : u < 2 * r ∨ u = 2 * r ∧ q0 % 2 = 1
    · rw [if_pos hc]
      have hd : (m : Int) - ((q0 + 1 : Nat) : Int) * u = r - u := by
        rw [hmi, Int.natCast_add, Int.add_mul, Int.mul_comm (q0 : Int)]; omega
      refine ⟨1022 + L, q0 + 1, by omega, by omega, by omega, rfl, ?_, ?_, lower, ?_, upper⟩
      · rw [key, hd]; exact scale _ (by omega)
      · rw [key, hd]
        intro h
        have := unscale _ h
        omega
      · intro hm
        obtain ⟨rfl, rfl⟩ := hbig hm
        omega
    · rw [if_neg hc]
      have hd : (m : Int) - (q0 : Int) * u = r := by
        rw [hmi, Int.mul_comm (q0 : Int)]; omega
      refine ⟨1022 + L, q0, by omega, by omega, by omega, rfl, ?_, ?_, lower, ?_, upper⟩
      · rw [key, hd]; exact scale _ (by omega)
      · rw [key, hd]
        intro h
        have := unscale _ h
        omega
      · intro hm
        obtain ⟨rfl, rfl⟩ := hbig hm
        have : r = 0 := by omega
        have h2 := key q0
        rw [hd, this] at h2
        simp only [Int.natCast_zero, Int.zero_mul] at h2
        omega

/-- The conversion of an integer gives the nearest float64. -/
theorem intToF64_nearest {n : Int} (hn : n.natAbs < 2 ^ 64) : Nearest n (intToF64 n) ∧ (n.natAbs ≤ 2 ^ 53 → f64Scaled (intToF64 n) = n * 2 ^ 1074) := by
  by_cases h0 : n = 0
  · subst h0
    have e : intToF64 0 = 0 := by decide
    have hz : f64Scaled 0 = 0 := by decide
    rw [e]
    refine ⟨⟨by unfold f64Finite; decide, fun _ => by decide, ?_, ?_⟩, fun _ => by rw [hz]; omega⟩
    · intro g _; rw [hz]; simp
    · intro g _ h1 h2
      rw [hz] at h1 h2
      omega
  · obtain ⟨E, q, hE, h1, h2, he, hd, ht, hlow, hex, _⟩ := intToF64_spec hn h0
    obtain ⟨hf, hs, hpar, hsg⟩ := bits_mant (neg := decide (n < 0)) hE h1 h2
    rw [← he] at hf hs hpar hsg
    have hqE : ((q * 2 ^ E : Nat) : Int) = (q : Int) * 2 ^ E := by rw [Int.natCast_mul, Int.natCast_pow]; rfl
    rw [hqE] at hs
    have hU : (0 : Int) < 2 ^ E := Int.pow_pos (by decide)
    have hcast : ((2 ^ 52 * 2 ^ E : Nat) : Int) = (2 : Int) ^ 52 * 2 ^ E := by rw [Int.natCast_mul, Int.natCast_pow, Int.natCast_pow]; rfl
    have dich : ∀ g : UInt64, ((f64Scaled g).natAbs : Int) < 2 ^ 52 * 2 ^ E ∨ ∃ k : Int, f64Scaled g = k * 2 ^ E := by
      intro g
      rcases scaled_multiple g E with h | h
      · left; rw [← hcast]; exact Int.ofNat_lt.2 h
      · exact .inr h
    by_cases hneg : n < 0
    · have hs' : f64Scaled (intToF64 n) = -((q : Int) * 2 ^ E) := by rw [hs]; simp [hneg]
      have hn' : n * 2 ^ 1074 = -((n.natAbs : Int) * 2 ^ 1074) := by
        rw [← Int.neg_mul]; congr 1; omega
      have near : ∀ g : UInt64, _ := fun g => nearest_of (G := -f64Scaled g) hU hd ht hlow (by
        rcases dich g with h | ⟨k, h⟩
        · left; rw [Int.natAbs_neg]; exact h
        · right; exact ⟨-k, by rw [h, Int.neg_mul]⟩)
      rw [hs', hn']
      generalize (n.natAbs : Int) * 2 ^ 1074 = N at *
      generalize hM : (q : Int) * 2 ^ E = M at *
      refine ⟨⟨hf, fun h => by omega, fun g _ => ?_, fun g _ hne heq => ?_⟩, fun hm => ?_⟩
      · rw [hs', hn']
        have := (near g).1
        omega
      · rw [hs'] at hne heq
        rw [hn'] at heq
        have := (near g).2 (by omega) (by omega)
        omega
      · rw [hex hm]
    · have hs' : f64Scaled (intToF64 n) = (q : Int) * 2 ^ E := by rw [hs]; simp [hneg]
      have hn' : n * 2 ^ 1074 = (n.natAbs : Int) * 2 ^ 1074 := by congr 1; omega
      have near : ∀ g : UInt64, _ := fun g => nearest_of (G := f64Scaled g) hU hd ht hlow (dich g)
      rw [hs', hn']
      generalize (n.natAbs : Int) * 2 ^ 1074 = N at *
      generalize hM : (q : Int) * 2 ^ E = M at *
      refine ⟨⟨hf, fun h => ?_, fun g _ => ?_, fun g _ hne heq => ?_⟩, fun hm => ?_⟩
      · simp [hneg] at hsg; omega
      · rw [hs', hn']; exact (near g).1
      · rw [hs'] at hne heq
        rw [hn'] at heq
        have := (near g).2 hne heq
        omega
      · rw [hex hm]

/-- A finite float64 that is not zero is determined by its value. -/
theorem scaled_inj {f g : UInt64} (h : f64Scaled f = f64Scaled g) (h0 : f64Scaled f ≠ 0) : f = g := by
  have hf := f.toNat_lt
  have hg := g.toNat_lt
  have hsf : f.toNat / 2 ^ 63 = 1 ↔ f64Scaled f < 0 := by
    revert h0; unfold f64Scaled; simp only
    split <;> intro h0 <;> constructor <;> intro _ <;> omega
  have hsg : g.toNat / 2 ^ 63 = 1 ↔ f64Scaled g < 0 := by
    rw [h] at h0
    revert h0; unfold f64Scaled; simp only
    split <;> intro h0 <;> constructor <;> intro _ <;> omega
  have habs : ∀ b : UInt64, (f64Scaled b).natAbs = f64Mant b * 2 ^ f64Pow b := fun b => (f64Scaled_abs b).1
  have hm := (habs f).symm.trans ((congrArg Int.natAbs h).trans (habs g))
  have hmf : f64Mant f < 2 ^ 53 ∧ (f64Pow f ≠ 0 → 2 ^ 52 ≤ f64Mant f) := by
    unfold f64Mant f64Pow f64Frac
    have := Nat.mod_lt f.toNat (show 0 < 2 ^ 52 by decide)
    split <;> omega
  have hmg : f64Mant g < 2 ^ 53 ∧ (f64Pow g ≠ 0 → 2 ^ 52 ≤ f64Mant g) := by
    unfold f64Mant f64Pow f64Frac
    have := Nat.mod_lt g.toNat (show 0 < 2 ^ 52 by decide)
    split <;> omega
  have aux : ∀ m p m' p' : Nat, m < 2 ^ 53 → (p' ≠ 0 → 2 ^ 52 ≤ m') → m * 2 ^ p = m' * 2 ^ p' → p' ≤ p := by
    intro m p m' p' h1 h2 h3
    apply Decidable.byContradiction
    intro hc
    have e : 2 ^ p' = 2 ^ (p' - p) * 2 ^ p := by rw [← Nat.pow_add]; congr 1; omega
    rw [e, ← Nat.mul_assoc] at h3
    have h4 := Nat.eq_of_mul_eq_mul_right (Nat.two_pow_pos p) h3
    have h5 := Nat.pow_le_pow_right (n := 2) (by decide) (show 1 ≤ p' - p by omega)
    have h6 := Nat.mul_le_mul_left m' h5
    have h7 := h2 (by omega)
    omega
  have hp : f64Pow f = f64Pow g := Nat.le_antisymm (aux _ _ _ _ hmg.1 hmf.2 hm.symm) (aux _ _ _ _ hmf.1 hmg.2 hm)
  rw [hp] at hm
  have hm' := Nat.eq_of_mul_eq_mul_right (Nat.two_pow_pos _) hm
  apply UInt64.toNat.inj
  have hsign : f.toNat / 2 ^ 63 = 1 ↔ g.toNat / 2 ^ 63 = 1 := by rw [hsf, hsg, h]
  unfold f64Pow f64Exp at hp
  unfold f64Mant f64Frac f64Exp at hm'
  have l1 := Nat.mod_lt f.toNat (show 0 < 2 ^ 52 by decide)
  have l2 := Nat.mod_lt g.toNat (show 0 < 2 ^ 52 by decide)
  split at hp <;> split at hp <;> simp_all only [if_true, if_false] <;> omega

/-- The nearest float64 is determined by the integer. -/
theorem nearest_unique {n : Int} (hn : n.natAbs < 2 ^ 64) {g : UInt64} (hg : Nearest n g) : g = intToF64 n := by
  have hf := (intToF64_nearest hn).1
  by_cases h0 : n = 0
  · subst h0
    have e : intToF64 0 = 0 := by decide
    have hz : f64Scaled 0 = 0 := by decide
    have h1 := hg.2.2.1 0 (by unfold f64Finite; decide)
    rw [hz] at h1
    have h2 : f64Scaled g = 0 := by omega
    have h3 := hg.2.1 (Int.le_refl _)
    rw [e]
    apply UInt64.toNat.inj
    have l1 := Nat.mod_lt g.toNat (show 0 < 2 ^ 52 by decide)
    unfold f64Scaled at h2
    simp only at h2
    split at h2 <;> split at h2
    · omega
    · omega
    · rename_i h5; simp; omega
    · exfalso
      rename_i h5
      have := Nat.two_pow_pos (g.toNat / 2 ^ 52 % 2 ^ 11 - 1)
      have := Nat.le_mul_of_pos_right (2 ^ 52 + g.toNat % 2 ^ 52) this
      omega
  · obtain ⟨E, q, hE, h1, h2, he, hd, ht, hlow, hex, hupp⟩ := intToF64_spec hn h0
    obtain ⟨_, hs, hpar, _⟩ := bits_mant (neg := decide (n < 0)) hE h1 h2
    rw [← he] at hs hpar
    have hqE : ((q * 2 ^ E : Nat) : Int) = (q : Int) * 2 ^ E := by rw [Int.natCast_mul, Int.natCast_pow]; rfl
    rw [hqE] at hs
    have hU : (0 : Int) < 2 ^ E := Int.pow_pos (by decide)
    have hq0 : (0 : Int) < (q : Int) * 2 ^ E := Int.mul_pos (by omega) hU
    have hne0 : f64Scaled (intToF64 n) ≠ 0 := by rw [hs]; split <;> omega
    symm
    by_cases hsc : f64Scaled (intToF64 n) = f64Scaled g
    · exact scaled_inj hsc hne0
    exfalso
    have heq := Nat.le_antisymm (hg.2.2.1 _ hf.1) (hf.2.2.1 _ hg.1)
    have hpg := hg.2.2.2 _ hf.1 hsc heq.symm
    have hpf := hf.2.2.2 _ hg.1 (fun h => hsc h.symm) heq
    -- with the sign of `n` taken away
    have hcast : ((2 ^ 52 * 2 ^ E : Nat) : Int) = (2 : Int) ^ 52 * 2 ^ E := by rw [Int.natCast_mul, Int.natCast_pow, Int.natCast_pow]; rfl
    have hN : n * 2 ^ 1074 = if n < 0 then -((n.natAbs : Int) * 2 ^ 1074) else (n.natAbs : Int) * 2 ^ 1074 := by
      split
      · rw [← Int.neg_mul]; congr 1; omega
      · congr 1; omega
    have : ∃ G : Int, (f64Scaled g = if n < 0 then -G else G) ∧ (((G.natAbs : Nat) : Int) < 2 ^ 52 * 2 ^ E ∨ ∃ k : Int, G = k * 2 ^ E) := by
      rcases scaled_multiple g E with h | ⟨k, h⟩
      · refine ⟨if n < 0 then -f64Scaled g else f64Scaled g, by split <;> omega, .inl ?_⟩
        rw [← hcast]; split <;> omega
      · refine ⟨if n < 0 then -f64Scaled g else f64Scaled g, by split <;> omega, .inr ⟨if n < 0 then -k else k, ?_⟩⟩
        split
        · rw [h, Int.neg_mul]
        · exact h
    obtain ⟨G, hG, hG'⟩ := this
    have hs' : f64Scaled (intToF64 n) = if n < 0 then -((q : Int) * 2 ^ E) else (q : Int) * 2 ^ E := by rw [hs]; simp
    have hdist : ((n.natAbs : Int) * 2 ^ 1074 - G).natAbs = ((n.natAbs : Int) * 2 ^ 1074 - (q : Int) * 2 ^ E).natAbs := by
      rw [hN, hG, hs'] at heq
      clear hG'
      generalize (n.natAbs : Int) * 2 ^ 1074 = N at *
      generalize (q : Int) * 2 ^ E = M at *
      split at heq <;> omega
    have hGq : G ≠ (q : Int) * 2 ^ E := by
      intro h
      apply hsc
      rw [hG, hs', h]
    have htie := (nearest_of hU hd ht hlow hG').2 hGq hdist
    rcases hG' with hG' | ⟨k, rfl⟩
    · have := (nearest_of (G := 2 ^ 52 * 2 ^ E) hU hd ht hlow (.inr ⟨2 ^ 52, rfl⟩)).1
      generalize (n.natAbs : Int) * 2 ^ 1074 = N at *
      generalize (q : Int) * 2 ^ E = M at *
      generalize (2 : Int) ^ 52 * 2 ^ E = W at *
      omega
    · -- the two candidates are one step apart
      have hk1 : k = q + 1 ∨ k = q - 1 := by
        have hle : ((k * 2 ^ E - (q : Int) * 2 ^ E).natAbs : Int) ≤ 2 ^ E := by
          generalize (n.natAbs : Int) * 2 ^ 1074 = N at *
          generalize (q : Int) * 2 ^ E = M at *
          generalize k * 2 ^ E = K at *
          omega
        have hkq : k ≠ q := fun h => hGq (by rw [h])
        rw [← Int.sub_mul, Int.natAbs_mul, Int.natCast_mul, Int.natAbs_of_nonneg (Int.le_of_lt hU)] at hle
        have : ((k - q).natAbs : Int) ≤ 1 := by
          apply Decidable.byContradiction
          intro hc
          have := Int.mul_le_mul_of_nonneg_right (show (2 : Int) ≤ (k - q).natAbs by omega) (Int.le_of_lt hU)
          omega
        omega
      have hhalf : 2 * ((n.natAbs : Int) * 2 ^ 1074) = (k + q) * 2 ^ E := by
        rw [Int.add_mul]
        generalize (n.natAbs : Int) * 2 ^ 1074 = N at *
        generalize (q : Int) * 2 ^ E = M at *
        generalize k * 2 ^ E = K at *
        omega
      have hb1 : 2 ^ 53 ≤ k + q := by
        have : (2 : Int) ^ 53 * 2 ^ E ≤ (k + q) * 2 ^ E := by
          have e : (2 : Int) ^ 53 * 2 ^ E = 2 * (2 ^ 52 * 2 ^ E) := by rw [← Int.mul_assoc]; rfl
          rw [← hhalf, e]
          omega
        exact Int.le_of_mul_le_mul_right this hU
      have hb2 : k + q ≤ 2 ^ 54 := by
        have : (k + q) * 2 ^ E ≤ (2 : Int) ^ 54 * 2 ^ E := by
          have e : (2 : Int) ^ 54 * 2 ^ E = 2 * (2 ^ 53 * 2 ^ E) := by rw [← Int.mul_assoc]; rfl
          rw [← hhalf, e]
          omega
        exact Int.le_of_mul_le_mul_right this hU
      obtain ⟨k', rfl⟩ := Int.eq_ofNat_of_zero_le (show 0 ≤ k by omega)
      obtain ⟨_, hs2, hpar2, _⟩ := bits_mant (neg := decide (n < 0)) (q := k') hE (by omega) (by omega)
      have hkE : ((k' * 2 ^ E : Nat) : Int) = (k' : Int) * 2 ^ E := by rw [Int.natCast_mul, Int.natCast_pow]; rfl
      have hk0 : (0 : Int) < (k' : Int) * 2 ^ E := Int.mul_pos (by omega) hU
      have : g = f64Bits (decide (n < 0)) (E * 2 ^ 52 + k') := by
        refine scaled_inj ?_ ?_
        · rw [hG, hs2, hkE]; simp
        · rw [hG]; split <;> omega
      rw [this, hpar2] at hpg
      omega

/-- The conversion of a float32 gives the same number. -/
theorem f32to64_same (b : UInt32) : SameNumber b (f32to64 b) := by
  have hb := b.toNat_lt
  unfold SameNumber f32to64
  simp only
  have hsgn : b.toNat / 2 ^ 31 = if decide (2 ^ 31 ≤ b.toNat) then 1 else 0 := by
    by_cases h : 2 ^ 31 ≤ b.toNat
    · simp only [h, decide_true, if_true]; omega
    · simp only [h, decide_false, Bool.false_eq_true, if_false]; omega
  have hsc : f32Scaled b = if decide (2 ^ 31 ≤ b.toNat)
      then -((if b.toNat / 2 ^ 23 % 2 ^ 8 = 0 then b.toNat % 2 ^ 23 else (2 ^ 23 + b.toNat % 2 ^ 23) * 2 ^ (b.toNat / 2 ^ 23 % 2 ^ 8 - 1) : Nat) : Int)
      else ((if b.toNat / 2 ^ 23 % 2 ^ 8 = 0 then b.toNat % 2 ^ 23 else (2 ^ 23 + b.toNat % 2 ^ 23) * 2 ^ (b.toNat / 2 ^ 23 % 2 ^ 8 - 1) : Nat) : Int) := by
    unfold f32Scaled
    simp only [hsgn]
    by_cases h : 2 ^ 31 ≤ b.toNat <;> simp [h]
  rw [hsc]
  generalize decide (2 ^ 31 ≤ b.toNat) = neg at *
  unfold f32Finite
  have he := Nat.mod_lt (b.toNat / 2 ^ 23) (show 0 < 2 ^ 8 by decide)
  have hf := Nat.mod_lt b.toNat (show 0 < 2 ^ 23 by decide)
  generalize b.toNat / 2 ^ 23 % 2 ^ 8 = e at *
  generalize b.toNat % 2 ^ 23 = f at *
  rw [hsgn]
  -- the numbers that are finite
  have fin : ∀ E q m : Nat, E ≤ 2044 → 2 ^ 52 ≤ q → q ≤ 2 ^ 53 → e ≠ 2 ^ 8 - 1 → q * 2 ^ E = m * 2 ^ 925 →
      (if e = 0 then f else (2 ^ 23 + f) * 2 ^ (e - 1)) = m → 
      (f64Bits neg (E * 2 ^ 52 + q)).toNat / 2 ^ 63 = (if neg = true then 1 else 0) ∧ (f64Finite (f64Bits neg (E * 2 ^ 52 + q)) ↔ e ≠ 2 ^ 8 - 1) ∧
      (e ≠ 2 ^ 8 - 1 → f64Scaled (f64Bits neg (E * 2 ^ 52 + q)) = (if neg = true
        then -((if e = 0 then f else (2 ^ 23 + f) * 2 ^ (e - 1) : Nat) : Int) else ((if e = 0 then f else (2 ^ 23 + f) * 2 ^ (e - 1) : Nat) : Int)) * 2 ^ 925) ∧
      (¬ e ≠ 2 ^ 8 - 1 → ((f64Bits neg (E * 2 ^ 52 + q)).toNat % 2 ^ 52 = 0 ↔ f = 0)) := by
    intro E q m hE h1 h2 hne heq hm
    obtain ⟨a1, a2, _, a4⟩ := bits_mant (neg := neg) hE h1 h2
    refine ⟨a4, ⟨fun _ => hne, fun _ => a1⟩, fun _ => ?_, fun h => absurd hne h⟩
    rw [a2, hm, heq, Int.natCast_mul, Int.natCast_pow]
    cases neg
    · rfl
    · simp only [if_true]; rw [← Int.neg_mul]; rfl
  by_cases h255 : e = 2 ^ 8 - 1
  · rw [if_pos h255]
    have hlt : (2 ^ 11 - 1) * 2 ^ 52 + (if f = 0 then 0 else 2 ^ 51 + f * 2 ^ 29 % 2 ^ 51) < 2 ^ 63 := by split <;> omega
    have hbits := f64Bits_toNat (neg := neg) hlt
    generalize f64Bits neg ((2 ^ 11 - 1) * 2 ^ 52 + if f = 0 then 0 else 2 ^ 51 + f * 2 ^ 29 % 2 ^ 51) = g at *
    have hm := Nat.mod_lt (f * 2 ^ 29) (show 0 < 2 ^ 51 by decide)
    generalize f * 2 ^ 29 % 2 ^ 51 = w at *
    refine ⟨?_, ?_, fun h => absurd h255 h, fun _ => ?_⟩
    · rw [hbits]; cases neg <;> simp only [if_true, Bool.false_eq_true, if_false] <;> split <;> omega
    · unfold f64Finite
      have : g.toNat / 2 ^ 52 % 2 ^ 11 = 2 ^ 11 - 1 := by
        rw [hbits]; cases neg <;> simp only [if_true, Bool.false_eq_true, if_false] <;> split <;> omega
      rw [this]
      simp [h255]
    · rw [hbits]; cases neg <;> simp only [if_true, Bool.false_eq_true, if_false] <;> split <;> omega
  · rw [if_neg h255]
    by_cases h0 : e = 0
    · rw [if_pos h0]
      by_cases hf0 : f = 0
      · rw [if_pos hf0]
        subst hf0 h0
        refine ⟨?_, ?_, fun _ => ?_, fun h => absurd h255 h⟩
        · rw [f64Bits_toNat (by decide)]; cases neg <;> rfl
        · unfold f64Finite
          rw [f64Bits_toNat (by decide)]; cases neg <;> simp
        · cases neg
          · simp only [Bool.false_eq_true, if_false, if_true, Int.natCast_zero, Int.zero_mul]; decide
          · simp only [if_true, Int.natCast_zero, Int.neg_zero, Int.zero_mul]; decide
      · rw [if_neg hf0]
        have hl := Nat.log2_self_le hf0
        have hu := Nat.lt_log2_self (n := f)
        generalize f.log2 = L at *
        have hL : L < 23 := by
          apply Decidable.byContradiction
          intro hc
          have := Nat.pow_le_pow_right (n := 2) (by decide) (show 23 ≤ L by omega)
          omega
        have e2 : 2 ^ L * 2 ^ (52 - L) = 2 ^ 52 := by rw [← Nat.pow_add]; congr 1; omega
        have e3 : 2 ^ (L + 1) * 2 ^ (52 - L) = 2 ^ 53 := by rw [← Nat.pow_add]; congr 1; omega
        exact fin (873 + L) (f * 2 ^ (52 - L)) f (by omega) (by rw [← e2]; exact Nat.mul_le_mul_right _ hl)
          (by rw [← e3]; exact Nat.mul_le_mul_right _ (Nat.le_of_lt hu)) h255 (by rw [Nat.mul_assoc, ← Nat.pow_add]; congr 2; omega) (by rw [if_pos h0])
    · rw [if_neg h0]
      have := fin (e + 895) ((2 ^ 23 + f) * 2 ^ 29) ((2 ^ 23 + f) * 2 ^ (e - 1)) (by omega) (by omega) (by omega) h255
        (by rw [Nat.mul_assoc, Nat.mul_assoc, ← Nat.pow_add, ← Nat.pow_add, show 29 + (e + 895) = e - 1 + 925 by omega]) (by rw [if_neg h0])
      have he' : (e + 896) * 2 ^ 52 + f * 2 ^ 29 = (e + 895) * 2 ^ 52 + (2 ^ 23 + f) * 2 ^ 29 := by omega
      rw [he']
      exact this

theorem OfKind.natAbs_lt {k : IntKind} {n : Int} (h : OfKind k n) : n.natAbs < 2 ^ 64 := by
  cases k <;> simp only [OfKind] at h <;> omega

end Xcore.Dataset
