import Verif.Proof.CacheWords

/-!
# C95: the percentages of `Clean` on a 64-bit machine
-/

namespace Xcore.CacheWords

open Xcore.Cache (Env Out)

variable {D : Type}

/-! ## C95 -/

/-- **C95** A history of fewer than 2^56 calls on a new cache in which every percentage given to `Clean` is between -100 and 100 gives,
with 64-bit arithmetic, the same answers and the same cache as with unbounded integers: whatever is proved of the unbounded model of the
cache holds of the machine. -/
theorem C95_percentages_do_not_overflow (m e : Int) (h : List (Env × Xcore.Cache.Op D)) (hl : h.length < 2 ^ 56)
    (hp : ∀ env p, (env, Xcore.Cache.Op.clean p) ∈ h → -100 ≤ p ∧ p ≤ 100) :
    V2.run (Xcore.Cache.new m e) h = Xcore.Cache.run (Xcore.Cache.new m e) h := by
  refine V2.run_eq h _ ?_ ?_
  · simp only [Xcore.Cache.new, List.length_nil]; omega
  · intro env p hm
    have := hp env p hm
    have h1 : p.natAbs ≤ 100 := by omega
    have h2 := Nat.mul_le_mul_left h.length h1
    simp only [Xcore.Cache.new, List.length_nil, Nat.zero_add]
    omega

/-- **C95** In general nothing overflows as long as the largest possible number of entries times the percentage does not. -/
theorem C95_small_products (c : Xcore.Cache.Cache D) (h : List (Env × Xcore.Cache.Op D)) (h10 : (c.items.length + h.length) * 10 < 2 ^ 63)
    (hp : ∀ env p, (env, Xcore.Cache.Op.clean p) ∈ h → (c.items.length + h.length) * p.natAbs < 2 ^ 63) :
    V2.run c h = Xcore.Cache.run c h :=
  V2.run_eq h c h10 hp

/-- **C95** In such a history no call panics, on the machine either. -/
theorem C95_never_panics (m e : Int) (h : List (Env × Xcore.Cache.Op D)) (hl : h.length < 2 ^ 56)
    (hp : ∀ env p, (env, Xcore.Cache.Op.clean p) ∈ h → -100 ≤ p ∧ p ≤ 100) : Out.panicked ∉ (V2.run (Xcore.Cache.new m e : Xcore.Cache.Cache D) h).2 := by
  rw [C95_percentages_do_not_overflow m e h hl hp]
  have gen : ∀ (h : List (Env × Xcore.Cache.Op D)) (c : Xcore.Cache.Cache D), Xcore.Cache.Tracked c →
      (∀ env p, (env, Xcore.Cache.Op.clean p) ∈ h → -100 ≤ p ∧ p ≤ 100) → Out.panicked ∉ (Xcore.Cache.run c h).2 := by
    intro h
    induction h with
    | nil => intro c _ _; simp [Xcore.Cache.run]
    | cons q h ih =>
      intro c hc hp
      obtain ⟨env, op⟩ := q
      simp only [Xcore.Cache.run, List.mem_cons, not_or]
      refine ⟨?_, ih _ (hc.step env op) fun env' p hm => hp env' p (List.mem_cons_of_mem _ hm)⟩
      intro he
      obtain ⟨p, e1, e2⟩ := Xcore.Cache.step_panicked hc env op he.symm
      subst e1
      have := hp env p List.mem_cons_self
      omega
  exact gen h _ (Xcore.Cache.Tracked.new m e) hp

/-- **C95** The same for version 1. -/
theorem C95_v1_percentages_do_not_overflow (m e : Int) (h : List (Env × Xcore.V1.Cache.Op D)) (hl : h.length < 2 ^ 56)
    (hp : ∀ env p, (env, Xcore.V1.Cache.Op.clean p) ∈ h → -100 ≤ p ∧ p ≤ 100) :
    V1.run (Xcore.V1.Cache.new m e) h = Xcore.V1.Cache.run (Xcore.V1.Cache.new m e) h := by
  refine V1.run_eq h _ ?_ ?_
  · simp only [Xcore.V1.Cache.new, List.length_nil]; omega
  · intro env p hm
    have := hp env p hm
    have h1 : p.natAbs ≤ 100 := by omega
    have h2 := Nat.mul_le_mul_left h.length h1
    simp only [Xcore.V1.Cache.new, List.length_nil, Nat.zero_add]
    omega

/-- The world of the witnesses: the clock stands still. -/
private def still : Env := { clk := fun _ => 0, clkAt := fun _ => 0, valid := fun _ _ => true }

/-- **C95** The bound on the percentage is needed: `Clean(-4611686018427387954)` with two entries, in unbounded arithmetic a call that
evicts nothing, panics on the machine, because the product wraps around to a positive number. -/
theorem C95_negative_percentage_panics :
    let h : List (Env × Xcore.Cache.Op Nat) := [(still, .set b!"a" 1), (still, .set b!"b" 2), (still, .clean (-4611686018427387954))]
    (V2.run (Xcore.Cache.new 0 0) h).2 = [.unit, .unit, .panicked] ∧
      (Xcore.Cache.run (Xcore.Cache.new 0 0) h).2 = [.unit, .unit, .num 0] := by
  decide +kernel

/-- **C95** Nor is a large positive one always too much: `Clean(4611686018427387904)` with four entries evicts nothing. -/
theorem C95_large_percentage_evicts_nothing :
    let h : List (Env × Xcore.Cache.Op Nat) := [(still, .set b!"a" 1), (still, .set b!"b" 2), (still, .set b!"c" 3), (still, .set b!"d" 4),
      (still, .clean 4611686018427387904), (still, .count)]
    (V2.run (Xcore.Cache.new 0 0) h).2 = [.unit, .unit, .unit, .unit, .num 0, .num 4] := by decide +kernel

/-- **C95** The same in version 1. -/
theorem C95_v1_negative_percentage_panics :
    let h : List (Env × Xcore.V1.Cache.Op Nat) := [(still, .set b!"a" 1), (still, .set b!"b" 2), (still, .clean (-4611686018427387954))]
    (V1.run (Xcore.V1.Cache.new 0 0) h).2 = [.unit, .unit, .panicked] := by decide +kernel

/-- Non-vacuity: a history with evictions by `Set` and by `Clean`, and a negative percentage. -/
example :
    let h : List (Env × Xcore.Cache.Op Nat) := [(still, .set b!"a" 1), (still, .set b!"b" 2), (still, .clean 50), (still, .clean (-7)), (still, .count)]
    h.length < 2 ^ 56 ∧ (V2.run (Xcore.Cache.new 0 0) h).2 = [.unit, .unit, .num 1, .num 0, .num 1] := by decide +kernel

end Xcore.CacheWords
