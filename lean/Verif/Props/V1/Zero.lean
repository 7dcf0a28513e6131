import Verif.Proof.V1.Zero

/-!
# Property C112: caches of version 1 after a panic, and caches written without their constructor

`Model/V1/Zero.lean` models the methods on a map that can be nil, with the mutex that a panicking call leaves locked.
-/

namespace Xcore.V1.Zero

open Xcore.Zero (Outcome)
open Xcore.Cache (Env Out)
open Xcore.V1.Cache (Op)

variable {D : Type}

/-- **C112** The outcomes of every history of calls on a cache made by `NewXCache`: the answers of the sequential model (C65, C99) up to the first panic, and after
it every method blocks for ever. -/
theorem C112_made_caches (m e : Int) (h : List (Env × Op D)) : (run (made (V1.Cache.new m e)) h).2 = madeAnswers (V1.Cache.new m e) h := run_made h _

/-- **C112** (partial: a literal is not usable as an empty cache) The outcomes of every history of calls on `&XCache{Maxitems: m, Expire: e, Validator: v}`. -/
theorem C112_cache_literal_partial (m e : Int) (v : Bool) (h : List (Env × Op D)) :
    (run (literal m e v) h).2 = literalAnswers { V1.Cache.new m e with hasValidator := v } h := run_literal h m e v

/-- **C112** Histories without `Set` before the first `Flush` do not tell a literal from a cache made by `NewXCache` with the same fields: if the literal is flushed
first, it is as good. -/
theorem C112_flushed_literal (m e : Int) (v : Bool) (pre post : List (Env × Op D)) (env env' : Env) (hs : ∀ p ∈ pre, ∀ k d, p.2 ≠ .set k d) :
    (run (literal m e v) (pre ++ (env, .flush) :: post)).2 = (run (made (V1.Cache.new m e)) ((env', .setValidator v) :: pre ++ (env, .flush) :: post)).2.tail := by
  rw [C112_cache_literal_partial, C112_made_caches]
  show _ = madeAnswers { V1.Cache.new m e with hasValidator := v } (pre ++ (env, .flush) :: post)
  show literalAnswers (void m e v) _ = madeAnswers (void m e v) _
  induction pre generalizing m e v with
  | nil => rfl
  | cons p pre ih =>
    obtain ⟨en, op⟩ := p
    have h1 := hs (en, op) (by simp)
    by_cases h2 : op = .flush
    · subst h2; rfl
    · obtain ⟨m', e', v', e1, e2⟩ := step_literal m e v en op h1 h2
      have h3 := ih m' e' v' (fun q hq => hs q (by simp [hq]))
      rw [← e2] at h3
      have h4 : (V1.Cache.step (void m e v) en op).2 ≠ .panicked := by
        intro h
        cases op with
        | clean p => simp [V1.Cache.step, (clean_literal (D := D) m e v en p).2] at h
        | verify =>
          simp only [V1.Cache.step, V1.Cache.verify, (clean_literal (D := D) m e v en 0).2] at h
          cases v <;> cases h
        | set k d => exact h1 k d rfl
        | flush => exact h2 rfl
        | _ => cases h
      rw [List.cons_append]
      simp only [madeAnswers]
      have h5 : literalAnswers (void m e v) ((en, op) :: (pre ++ (env, .flush) :: post)) =
          .returns (V1.Cache.step (void m e v) en op).2 :: literalAnswers (V1.Cache.step (void m e v) en op).1 (pre ++ (env, .flush) :: post) := by
        cases op <;> first
          | rfl
          | exact absurd rfl (h1 _ _)
          | exact absurd rfl h2
      rw [h5, h3]

theorem last_stuck (h : List (Env × Op D)) (env : Env) {op : Op D} (ho : IsCall op = true) :
    (Outcome.panics :: stuck (h ++ [(env, op)])).getLast? = some .blocks := by
  simp only [stuck, List.map_append, List.map_cons, List.map_nil, ho, if_true, ← List.cons_append]
  exact List.getLast?_concat ..

/-- **C112** In particular: `Set` on a literal that was not flushed panics, and after it every method blocks for ever, also `Flush`. -/
theorem C112_set_into_literal_blocks (m e : Int) (v : Bool) (env env' : Env) (k : Str) (d : D) (h : List (Env × Op D)) (op : Op D) (ho : IsCall op = true) :
    (run (literal m e v) ((env, .set k d) :: h ++ [(env', op)])).2.head? = some .panics ∧
    (run (literal m e v) ((env, .set k d) :: h ++ [(env', op)])).2.getLast? = some .blocks := by
  rw [C112_cache_literal_partial]
  refine ⟨rfl, ?_⟩
  show (Outcome.panics :: stuck (h ++ [(env', op)])).getLast? = _
  rw [last_stuck h env' ho]

/-- **C112** In particular: `Clean` with a percentage that asks for more keys than the pile has panics, and after it every method blocks for ever. -/
theorem C112_panicking_clean_blocks (c : V1.Cache.Cache D) (env env' : Env) (p : Int) (hp : (V1.Cache.clean c env p).2 = none) (h : List (Env × Op D)) (op : Op D)
    (ho : IsCall op = true) :
    (run (made c) ((env, .clean p) :: h ++ [(env', op)])).2.head? = some .panics ∧
    (run (made c) ((env, .clean p) :: h ++ [(env', op)])).2.getLast? = some .blocks := by
  rw [run_made]
  have : madeAnswers c ((env, .clean p) :: h ++ [(env', op)]) = .panics :: stuck (h ++ [(env', op)]) := by
    simp only [List.cons_append, madeAnswers, V1.Cache.step, hp]
  rw [this]
  exact ⟨rfl, last_stuck h env' ho⟩

/-- A clock that stands still. -/
def now (t : Int) : Env := ⟨fun _ => t, fun _ => t, fun _ _ => true⟩

/-- A literal that is flushed, and one that is not. -/
example : (run (literal 10 0 false : Cache Nat) [(now 1, .get b!"a"), (now 1, .clean 50), (now 2, .flush), (now 3, .set b!"a" 7), (now 4, .get b!"a")]).2 =
      [.returns (.got none false), .returns (.num 0), .returns .unit, .returns .unit, .returns (.got (some 7) false)] ∧
    (run (literal 10 0 false : Cache Nat) [(now 1, .count), (now 3, .set b!"a" 7), (now 4, .get b!"a"), (now 5, .setMaxitems 3), (now 5, .flush)]).2 =
      [.returns (.num 0), .panics, .blocks, .returns .unit, .blocks] := ⟨rfl, rfl⟩

/-- `Clean(200)` on a cache with one entry panics. -/
example : (V1.Cache.clean (V1.Cache.run (V1.Cache.new 10 0 : V1.Cache.Cache Nat) [(now 1, .set b!"a" 7)]).1 (now 2) 200).2 = none := rfl

end Xcore.V1.Zero
