import Verif.Spec.CacheHistory
import Verif.Proof.CacheSections
import Verif.Proof.Method

/-! # The calls that have ended, as a sequential history -/

namespace Xcore.Cache

open Lock

variable {D : Type}

theorem run_snoc_fst (c : Cache D) (h : List (Env × Op D)) (env : Env) (op : Op D) :
    (run c (h ++ [(env, op)])).1 = (step (run c h).1 env op).1 := by
  rw [run_append]; rfl

theorem run_snoc_snd (c : Cache D) (h : List (Env × Op D)) (env : Env) (op : Op D) :
    (run c (h ++ [(env, op)])).2 = (run c h).2 ++ [(step (run c h).1 env op).2] := by
  induction h generalizing c with
  | nil => rfl
  | cons p h ih => obtain ⟨e, o⟩ := p; simp only [List.cons_append, run]; rw [ih]

theorem run_length (c : Cache D) (h : List (Env × Op D)) : (run c h).2.length = h.length := by
  induction h generalizing c with
  | nil => rfl
  | cons p h ih => obtain ⟨e, o⟩ := p; simp [run, ih]

theorem run_nodup {c : Cache D} (hn : c.items.Nodup) (h : List (Env × Op D)) : (run c h).1.items.Nodup := by
  induction h generalizing c with
  | nil => exact hn
  | cons p h ih => obtain ⟨e, o⟩ := p; exact ih (step_nodup hn e o)

theorem answersOf_snoc (i j : Nat) (c : Cache D) (hist : List (Nat × Env × Op D)) (env : Env) (op : Op D) :
    answersOf i c (hist ++ [(j, env, op)]) =
      answersOf i c hist ++ (if j = i then [(step (run c (asHistory hist)).1 env op).2] else []) := by
  unfold answersOf asHistory
  simp only [List.map_append, List.map_cons, List.map_nil, run_snoc_snd]
  rw [List.zip_append (by simp [run_length])]
  simp only [List.zip_cons_cons, List.zip_nil_left, List.filter_append, List.map_append]
  by_cases h : j = i <;> simp [h]

theorem replay_is_history (c0 : Cache D) (hn : c0.items.Nodup) :
    ∀ {log : List (Nat × Section (Cache D) (Loc D))} {S : Cache D} {Ls : Nat → Loc D}, Replay c0 (fun _ => Loc.empty) log S Ls →
    ∀ hist : List (Nat × Env × Op D), log = hist.map (fun p => (p.1, opSection p.2.1 p.2.2)) → (∀ p ∈ hist, Locked p.2.2) →
      S = (run c0 (asHistory hist)).1 ∧ ∀ i, Ls i = { (Loc.empty : Loc D) with outs := answersOf i c0 hist } := by
  intro log S Ls h
  induction h with
  | nil =>
    intro hist hh _
    cases hist with
    | nil => exact ⟨rfl, fun i => rfl⟩
    | cons p hist => cases hh
  | @snoc log s ls i sec s' l' hpre he ih =>
    intro hist hh hlk
    rcases List.eq_nil_or_concat hist with rfl | ⟨hist, ⟨j, env, op⟩, rfl⟩
    · simp at hh
    simp only [List.concat_eq_append, List.map_append, List.map_cons, List.map_nil] at hh hlk ⊢
    obtain ⟨e1, e2⟩ := List.append_inj' hh rfl
    simp only [List.cons.injEq, Prod.mk.injEq, and_true] at e2
    obtain ⟨rfl, rfl⟩ := e2
    obtain ⟨h3, h4⟩ := ih hist e1 (fun p hp => hlk p (by simp [hp]))
    have hop : Locked op := hlk (i, env, op) (by simp)
    have hnod : s.items.Nodup := by rw [h3]; exact run_nodup hn _
    have hex := opSection_exec env op hop s hnod (ls i)
    obtain ⟨e1, e2⟩ := he.det hex
    refine ⟨?_, ?_⟩
    · rw [e1, h3]
      simp only [asHistory, List.map_append, List.map_cons, List.map_nil, run_snoc_fst]
    · intro j
      rw [answersOf_snoc]
      by_cases hj : j = i
      · subst hj
        simp only [upd_self, if_true]
        rw [e2, h4 j, h3]
        rfl
      · simp only [upd_ne _ _ hj, h4 j, if_neg (fun e => hj e.symm : ¬ i = j), List.append_nil]

end Xcore.Cache
