import Verif.Proof.DatasetConv
import Verif.Model.V1.Dataset

/-!
# C93: numbers read as float64

`GetFloat` of an integer gives the float64 nearest to it and nothing else; up to 2^53 it is the integer itself, so that reading the integer back from the
float64 loses nothing and the order of integers is kept. From 2^53 + 1 on integers are rounded.
-/

namespace Xcore.Dataset

/-- Memory for the examples: the keys hold 2^53 + 1, -5 and the float32 -1.5. -/
def numbers : Heap := [.ds [(b!"big", .int .int64 (2 ^ 53 + 1)), (b!"n", .int .int8 (-5)), (b!"f", .f32 0xBFC00000)]]

/-- **C93** `GetFloat` of an integer is the float64 nearest to it (the even one of two that are equally near), and no other one. -/
theorem C93_integer_is_nearest {h : Heap} {a : Addr} {key : Str} {k : IntKind} {n : Int} (hk : OfKind k n) (e : get h a key = .ok (some (.int k n)))
    (f : UInt64) : getFloat h a key = .ok (some f) ↔ Nearest n f := by
  unfold getFloat
  rw [e]
  simp only [Res.map, Option.bind_some, toFloat, Res.ok.injEq, Option.some.injEq]
  constructor
  · rintro rfl; exact (intToF64_nearest hk.natAbs_lt).1
  · intro hf; exact (nearest_unique hk.natAbs_lt hf).symm

/-- **C93** Integers up to 2^53 in size are not changed. -/
theorem C93_exact {h : Heap} {a : Addr} {key : Str} {k : IntKind} {n : Int} (hk : OfKind k n) (e : get h a key = .ok (some (.int k n)))
    (hn : -2 ^ 53 ≤ n ∧ n ≤ 2 ^ 53) : ∃ f, getFloat h a key = .ok (some f) ∧ f64Finite f ∧ f64Scaled f = n * 2 ^ 1074 := by
  have := intToF64_nearest hk.natAbs_lt
  refine ⟨intToF64 n, ?_, this.1.1, this.2 (by omega)⟩
  unfold getFloat
  rw [e]
  rfl

/-- Non-vacuity: -5 is such an integer, and its float64 is -5.0. -/
example : OfKind .int8 (-5) ∧ get numbers 0 b!"n" = .ok (some (.int .int8 (-5))) ∧ getFloat numbers 0 b!"n" = .ok (some 0xC014000000000000) :=
  ⟨by simp [OfKind], by decide, by decide +kernel⟩

/-- **C93** An integer up to 2^53 in size, read as a float64 and stored, is read back by `GetInt`. -/
theorem C93_there_and_back (x : Ext) {h h' : Heap} {a a' : Addr} {key key' : Str} {k : IntKind} {n : Int} (hk : OfKind k n)
    (hn : -2 ^ 53 ≤ n ∧ n ≤ 2 ^ 53) (e : get h a key = .ok (some (.int k n))) {f : UInt64} (hf : getFloat h a key = .ok (some f))
    (e' : get h' a' key' = .ok (some (.f64 f))) : getInt x h' a' key' = .ok (some n) := by
  obtain ⟨f', h1, h2, h3⟩ := C93_exact hk e hn
  rw [hf] at h1
  cases h1
  unfold getInt
  rw [e']
  have hP : (0 : Int) < 2 ^ 1074 := Int.pow_pos (by decide)
  have : ToInt (.f64 f) n := by
    refine .f64 h2 ?_ ⟨by omega, by omega⟩
    rw [h3]
    unfold IntegerPart
    split
    · exact ⟨Int.le_refl _, Int.mul_lt_mul_of_pos_right (by omega) hP⟩
    · exact ⟨Int.mul_lt_mul_of_pos_right (by omega) hP, Int.le_refl _⟩
  simp [Res.map, toInt_of this]

/-- Non-vacuity: -5 as a float64. -/
example (x : Ext) : getFloat numbers 0 b!"n" = .ok (some 0xC014000000000000) ∧
    getInt x [.ds [(b!"m", .f64 0xC014000000000000)]] 0 b!"m" = .ok (some (-5)) :=
  ⟨by decide +kernel, C93_there_and_back (h := numbers) (a := 0) (key := b!"n") (k := .int8) x (by simp [OfKind]) (by decide) (by decide) (by decide +kernel) rfl⟩

/-- **C93** The order of integers is kept: a greater one is never read as a smaller float64. -/
theorem C93_order {h h' : Heap} {a a' : Addr} {key key' : Str} {k k' : IntKind} {n m : Int} (hk : OfKind k n) (hk' : OfKind k' m) (hnm : n ≤ m)
    (e : get h a key = .ok (some (.int k n))) (e' : get h' a' key' = .ok (some (.int k' m))) {f g : UInt64}
    (hf : getFloat h a key = .ok (some f)) (hg : getFloat h' a' key' = .ok (some g)) : f64Scaled f ≤ f64Scaled g := by
  have h1 := (C93_integer_is_nearest hk e f).1 hf
  have h2 := (C93_integer_is_nearest hk' e' g).1 hg
  have a1 := h1.2.2.1 g h2.1
  have a2 := h2.2.2.1 f h1.1
  have hP : (0 : Int) < 2 ^ 1074 := Int.pow_pos (by decide)
  by_cases hl : n = m
  · subst hl
    have e1 := nearest_unique hk.natAbs_lt h1
    have e2 := nearest_unique hk.natAbs_lt h2
    rw [e1, e2]
    exact Int.le_refl _
  · have hlt := Int.mul_lt_mul_of_pos_right (show n < m by omega) hP
    generalize n * 2 ^ 1074 = N at *
    generalize m * 2 ^ 1074 = M at *
    omega

/-- Non-vacuity: -5 and 2^53 + 1. -/
example : ∃ f g, getFloat numbers 0 b!"n" = .ok (some f) ∧ getFloat numbers 0 b!"big" = .ok (some g) ∧ f64Scaled f ≤ f64Scaled g :=
  ⟨_, _, rfl, rfl, C93_order (k := .int8) (k' := .int64) (n := -5) (m := 2 ^ 53 + 1) (h := numbers) (h' := numbers) (a := 0) (a' := 0) (by simp [OfKind]) (by simp [OfKind])
    (by decide) (by decide : get numbers 0 b!"n" = _) (by decide : get numbers 0 b!"big" = _) rfl rfl⟩

/-- **C93** `GetBool` of an integer and of its float64 agree. -/
theorem C93_same_truth {h h' : Heap} {a a' : Addr} {key key' : Str} {k : IntKind} {n : Int} (hk : OfKind k n)
    (e : get h a key = .ok (some (.int k n))) {f : UInt64} (hf : getFloat h a key = .ok (some f)) (e' : get h' a' key' = .ok (some (.f64 f))) :
    getBool h' a' key' = getBool h a key := by
  have h1 := (C93_integer_is_nearest hk e f).1 hf
  unfold getBool
  rw [e, e']
  simp only [Res.map, Option.map_some, toBool, Res.ok.injEq, Option.some.injEq]
  have hz : f64Scaled f = 0 ↔ n = 0 := by
    by_cases h0 : n = 0
    · subst h0
      have := (intToF64_nearest (n := 0) (by decide)).2 (by decide)
      rw [nearest_unique (by decide) h1, this]
      simp
    · simp only [h0, iff_false]
      intro hc
      by_cases hs : n.natAbs ≤ 2 ^ 53
      · have := (intToF64_nearest hk.natAbs_lt).2 hs
        rw [← nearest_unique hk.natAbs_lt h1, hc] at this
        have hP : (2 : Int) ^ 1074 ≠ 0 := Int.ne_of_gt (Int.pow_pos (by decide))
        rcases Int.mul_eq_zero.1 this.symm with h | h
        · exact h0 h
        · exact hP h
      · -- 1.0 or -1.0 is nearer than 0.0
        have hP : (0 : Int) < 2 ^ 1074 := Int.pow_pos (by decide)
        have one := (intToF64_nearest (n := 1) (by decide))
        have mone := (intToF64_nearest (n := -1) (by decide))
        have d1 := h1.2.2.1 _ one.1.1
        have d2 := h1.2.2.1 _ mone.1.1
        rw [one.2 (by decide), hc] at d1
        rw [mone.2 (by decide), hc] at d2
        by_cases hn : 0 < n
        · have := Int.mul_le_mul_of_nonneg_right (show (2 : Int) ≤ n by omega) (Int.le_of_lt hP)
          generalize (2 : Int) ^ 1074 = P at *
          omega
        · have := Int.mul_le_mul_of_nonneg_right (show n ≤ (-2 : Int) by omega) (Int.le_of_lt hP)
          generalize (2 : Int) ^ 1074 = P at *
          omega
  cases hb : f64NonZero f with
  | false =>
    have := hz.1 (f64NonZero_iff.1 hb).2
    subst this
    rfl
  | true =>
    have : n ≠ 0 := by
      intro h0
      have := f64NonZero_iff.2 ⟨h1.1, hz.2 h0⟩
      rw [this] at hb
      cases hb
    simp [this]

/-- **C93** A float32 is read as the same number: same sign, same value; infinities and NaN stay what they are. -/
theorem C93_float32 {h : Heap} {a : Addr} {key : Str} {b : UInt32} (e : get h a key = .ok (some (.f32 b))) :
    ∃ f, getFloat h a key = .ok (some f) ∧ SameNumber b f := by
  refine ⟨f32to64 b, ?_, f32to64_same b⟩
  unfold getFloat
  rw [e]
  rfl

/-- Non-vacuity: -1.5, the smallest float32, minus infinity and a NaN. -/
example : getFloat numbers 0 b!"f" = .ok (some 0xBFF8000000000000) ∧ f32to64 1 = 0x36A0000000000000 ∧ f32to64 0xFF800000 = 0xFFF0000000000000 ∧
    f32to64 0x7F800001 = 0x7FF8000020000000 := ⟨by decide +kernel, by decide +kernel, by decide +kernel, by decide +kernel⟩

/-- **C93** From 2^53 + 1 on the integer may be lost: `GetFloat` of 2^53 + 1 is the float64 of 2^53. -/
theorem C93_large_integers_are_rounded :
    getFloat numbers 0 b!"big" = getFloat [.ds [(b!"k", .int .int64 (2 ^ 53))]] 0 b!"k" ∧ get numbers 0 b!"big" = .ok (some (.int .int64 (2 ^ 53 + 1))) :=
  ⟨by decide +kernel, by decide⟩

end Xcore.Dataset

namespace Xcore.V1.Dataset

open Xcore.Dataset (IntKind OfKind Nearest SameNumber intToF64_nearest nearest_unique f32to64_same)

/-- **C93** The same in version 1. -/
theorem C93_v1 {h : Heap} {a : Nat} {key : Str} :
    (∀ {k : IntKind} {n : Int}, OfKind k n → get h a key = some (.int k n) → ∀ f, getFloat h a key = some f ↔ Nearest n f) ∧
    (∀ {b : UInt32}, get h a key = some (.f32 b) → ∃ f, getFloat h a key = some f ∧ SameNumber b f) := by
  unfold getFloat
  constructor
  · intro k n hk e f
    rw [e]
    simp only [Option.bind_some, toFloat, Option.some.injEq]
    constructor
    · rintro rfl; exact (intToF64_nearest hk.natAbs_lt).1
    · intro hf; exact (nearest_unique hk.natAbs_lt hf).symm
  · intro b e
    rw [e]
    exact ⟨_, rfl, f32to64_same b⟩

/-- Non-vacuity: 3 as an int. -/
example : getFloat [.ds [(b!"k", .int .int 3)]] 0 b!"k" = some 0x4008000000000000 := by decide +kernel

end Xcore.V1.Dataset
