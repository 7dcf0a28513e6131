import Verif.Spec.V1.Zero

/-! # C112: a cache of version 1 made without its constructor -/

namespace Xcore.V1.Zero

open Xcore.Zero (GoMap Outcome)
open Xcore.Cache (Env Out)
open Xcore.V1.Cache (Op Entry)

variable {D : Type}

/-- The outcome of a call of the sequential model: a panic leaves the mutex locked. -/
def lift : V1.Cache.Cache D × Out D → Cache D × Outcome (Out D)
  | (c, .panicked) => ({ made c with held := true }, .panics)
  | (c, o) => (made c, .returns o)

theorem clean_made (c : V1.Cache.Cache D) (env : Env) (p : Int) : clean (made c) env p = lift (V1.Cache.step c env (.clean p)) := by
  obtain ⟨m, e, v, items, pile⟩ := c
  have key : ∀ (its : AMap (Entry D)) (num : Nat) (its' : AMap (Entry D)),
      (if num ≤ pile.length then (({ maxitems := m, expire := e, hasValidator := v, items := some its', pile := pile.drop num, held := false } : Cache D),
          Outcome.returns (Out.num (D := D) num))
        else ({ maxitems := m, expire := e, hasValidator := v, items := some its', pile := pile, held := true }, .panics)) =
      lift ((if num ≤ pile.length then (({ maxitems := m, expire := e, hasValidator := v, items := its', pile := pile.drop num } : V1.Cache.Cache D), some (num : Int))
          else ({ maxitems := m, expire := e, hasValidator := v, items := its', pile := pile }, none)).1,
        match (if num ≤ pile.length then (({ maxitems := m, expire := e, hasValidator := v, items := its', pile := pile.drop num } : V1.Cache.Cache D), some (num : Int))
          else ({ maxitems := m, expire := e, hasValidator := v, items := its', pile := pile }, none)).2 with
        | some n => .num n
        | none => .panicked) := by
    intro its num its'
    by_cases h : num ≤ pile.length
    · rw [if_pos h, if_pos h]; rfl
    · rw [if_neg h, if_neg h]; rfl
  exact key items _ _

theorem verifyLoop_made (env : Env) : ∀ (l : List (Str × Entry D)) (c : V1.Cache.Cache D) (i : Int),
    verifyLoop env l (made c) i = (made (V1.Cache.verifyLoop env l c i).1, (V1.Cache.verifyLoop env l c i).2)
  | [], _, _ => rfl
  | (k, x) :: l, c, i => by
    simp only [verifyLoop, V1.Cache.verifyLoop]
    split
    · exact verifyLoop_made env l { c with items := c.items.del k } _
    · exact verifyLoop_made env l _ _

theorem verify_made (c : V1.Cache.Cache D) (env : Env) : verify (made c) env = lift (V1.Cache.step c env .verify) := by
  simp only [verify, clean_made, V1.Cache.step, V1.Cache.verify]
  cases h : V1.Cache.clean c env 0 with
  | mk c' o =>
    cases o with
    | none => rfl
    | some i =>
      simp only [lift, verifyLoop_made, show (made c').items.pairs = c'.items from rfl, show (made c').hasValidator = c'.hasValidator from rfl]
      cases hv : c'.hasValidator <;> simp

theorem set_made (c : V1.Cache.Cache D) (env : Env) (k : Str) (d : D) : set (made c) env k d = lift (V1.Cache.step c env (.set k d)) := by
  let c1 : V1.Cache.Cache D := { c with
    items := c.items.set k { ctime := env.clk 0, rtime := env.clk 1, data := d },
    pile := (if (c.items.get k).isSome then V1.Cache.removeFromPile c.pile k else c.pile) ++ [k] }
  have e : set (made c) env k d = if 0 < c1.maxitems ∧ c1.maxitems ≤ c1.items.length then
      (match clean (made c1) env 10 with
        | (c', .returns _) => (c', .returns .unit)
        | (c', .panics) => (c', .panics)
        | (c', .blocks) => (c', .blocks)) else (made c1, .returns .unit) := rfl
  have e' : V1.Cache.set c env k d = if 0 < c1.maxitems ∧ c1.maxitems ≤ c1.items.length then
      ((V1.Cache.clean c1 env 10).1, (V1.Cache.clean c1 env 10).2.isSome) else (c1, true) := rfl
  rw [e]
  simp only [V1.Cache.step, e', clean_made]
  split
  · cases h : V1.Cache.clean c1 env 10 with
    | mk c' o => cases o <;> rfl
  · rfl

theorem get_made (c : V1.Cache.Cache D) (env : Env) (k : Str) : get (made c) env k = lift (V1.Cache.step c env (.get k)) := by
  simp only [V1.Cache.step]
  unfold get V1.Cache.get
  rw [show (made c).items.get k = c.items.get k from rfl]
  cases AMap.get c.items k with
  | none => rfl
  | some x =>
    show (if (c.hasValidator && !env.valid k x.ctime) = true then _ else _) = _
    dsimp only
    cases h : (c.hasValidator && !env.valid k x.ctime)
    · cases h' : (decide (c.expire ≠ 0) && decide (x.ctime + c.expire < env.clk 1))
      · simp only [Bool.false_eq_true, if_false]
        rw [if_neg (by rw [show (made c).expire = c.expire from rfl, h']; exact Bool.false_ne_true)]
        rfl
      · simp only [Bool.false_eq_true, if_false, if_true]
        rw [if_pos (by rw [show (made c).expire = c.expire from rfl, h'])]
        rfl
    · rfl

theorem step_made (c : V1.Cache.Cache D) (env : Env) (op : Op D) : step (made c) env op = lift (V1.Cache.step c env op) := by
  cases op with
  | set k d => exact set_made c env k d
  | get k => exact get_made c env k
  | clean p => exact clean_made c env p
  | verify => exact verify_made c env
  | _ => rfl

theorem step_held {c : Cache D} (hc : c.held = true) (env : Env) (op : Op D) :
    (step c env op).1.held = true ∧ (step c env op).2 = if IsCall op then .blocks else .returns .unit := by
  have hl : ∀ {Ω : Type} (body : Cache D × Outcome Ω), c.locked body = (c, .blocks) := fun body => if_pos hc
  cases op with
  | set k d => simp only [step, set, hl]; exact ⟨hc, rfl⟩
  | get k => simp only [step, get, hl]; exact ⟨hc, rfl⟩
  | del k => simp only [step, del, hl]; exact ⟨hc, rfl⟩
  | count => simp only [step, hl]; exact ⟨hc, rfl⟩
  | clean p => simp only [step, clean, hl]; exact ⟨hc, rfl⟩
  | verify => simp only [step, verify, clean, hl]; exact ⟨hc, rfl⟩
  | flush => simp only [step, hl]; exact ⟨hc, rfl⟩
  | setMaxitems m => exact ⟨hc, rfl⟩
  | setExpire e => exact ⟨hc, rfl⟩
  | setValidator b => exact ⟨hc, rfl⟩

theorem run_held : ∀ (h : List (Env × Op D)) {c : Cache D}, c.held = true → (run c h).2 = stuck h
  | [], _, _ => rfl
  | (env, op) :: h, c, hc => by
    have := step_held hc env op
    simp only [run, this.2, run_held h this.1, stuck, List.map_cons]

theorem run_made : ∀ (h : List (Env × Op D)) (c : V1.Cache.Cache D), (run (made c) h).2 = madeAnswers c h
  | [], _ => rfl
  | (env, op) :: h, c => by
    simp only [run, step_made, madeAnswers]
    cases hs : V1.Cache.step c env op with
    | mk c' o =>
      cases o with
      | panicked => simp only [lift]; rw [run_held h (show ({ made c' with held := true } : Cache D).held = true from rfl)]
      | unit => simp only [lift, run_made h c']
      | got d i => simp only [lift, run_made h c']
      | num n => simp only [lift, run_made h c']

/-- An empty cache with given fields. -/
def void (m e : Int) (v : Bool) : V1.Cache.Cache D := { maxitems := m, expire := e, hasValidator := v, items := [], pile := [] }

theorem clean_literal (m e : Int) (v : Bool) (env : Env) (p : Int) :
    clean (literal m e v : Cache D) env p = (literal m e v, .returns (.num 0)) ∧ V1.Cache.clean (void m e v : V1.Cache.Cache D) env p = (void m e v, some 0) := by
  constructor
  · by_cases h : e = 0 <;> simp [clean, Cache.locked, literal, GoMap.pairs, GoMap.left, h]
  · by_cases h : e = 0 <;> simp [V1.Cache.clean, void, h]

theorem step_literal (m e : Int) (v : Bool) (env : Env) (op : Op D) (h1 : ∀ k d, op ≠ .set k d) (h2 : op ≠ .flush) :
    ∃ m' e' v', step (literal m e v) env op = (literal m' e' v', .returns (V1.Cache.step (void m e v) env op).2) ∧
      (V1.Cache.step (void m e v) env op).1 = void m' e' v' := by
  cases op with
  | set k d => exact absurd rfl (h1 k d)
  | flush => exact absurd rfl h2
  | get k => exact ⟨m, e, v, rfl, rfl⟩
  | del k => exact ⟨m, e, v, rfl, rfl⟩
  | count => exact ⟨m, e, v, rfl, rfl⟩
  | clean p =>
    refine ⟨m, e, v, ?_, ?_⟩
    · simp only [step, V1.Cache.step, (clean_literal m e v env p).1, (clean_literal (D := D) m e v env p).2]
    · simp only [V1.Cache.step, (clean_literal (D := D) m e v env p).2]
  | verify =>
    refine ⟨m, e, v, ?_, ?_⟩
    · simp only [step, verify, V1.Cache.step, V1.Cache.verify, (clean_literal m e v env 0).1, (clean_literal (D := D) m e v env 0).2]
      cases v <;> rfl
    · simp only [V1.Cache.step, V1.Cache.verify, (clean_literal (D := D) m e v env 0).2]
      cases v <;> rfl
  | setMaxitems x => exact ⟨x, e, v, rfl, rfl⟩
  | setExpire x => exact ⟨m, x, v, rfl, rfl⟩
  | setValidator x => exact ⟨m, e, x, rfl, rfl⟩

theorem run_literal : ∀ (h : List (Env × Op D)) (m e : Int) (v : Bool), (run (literal m e v) h).2 = literalAnswers (void m e v) h
  | [], _, _, _ => rfl
  | (env, op) :: h, m, e, v => by
    by_cases h1 : ∃ k d, op = .set k d
    · obtain ⟨k, d, rfl⟩ := h1
      show Outcome.panics :: (run { (literal m e v : Cache D) with held := true } h).2 = _
      rw [run_held h rfl]; rfl
    · by_cases h2 : op = .flush
      · subst h2
        show Outcome.returns Out.unit :: (run (made (void m e v)) h).2 = _
        rw [run_made]; rfl
      · obtain ⟨m', e', v', e1, e2⟩ := step_literal m e v env op (fun k d he => h1 ⟨k, d, he⟩) h2
        simp only [run, e1, run_literal h]
        cases op <;> first
          | (simp only [literalAnswers, e2]; done)
          | exact absurd ⟨_, _, rfl⟩ h1
          | exact absurd rfl h2

end Xcore.V1.Zero
