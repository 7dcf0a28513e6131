import Verif.Spec.CollectionConc
import Verif.Proof.CollectionTurns

/-! # Calls on an `XDatasetCollectionTS` that do not overlap: C82 -/

namespace Xcore.CollectionConc

open Dataset

/-- **C82** Goroutines that use one collection in turns, each waiting for the others' calls to end: the answers, the elements and the datasets are those of
the same calls made one after the other. Only a `Pop` or `Shift` of an empty collection, a `GetData` that meets a nil element or a wrapper around nothing
before a value, and a `Set` on a wrapper around nothing panic (`Effect` lists the cases). -/
theorem C82_calls_in_turns_as_in_sequence (h : Heap) (items : List (Option Addr)) (calls : Nat → List Op) (log : List (Op × Out)) (c : Conf)
    (ht : Turns (init h items calls) log c) : Effects h items log c.heap c.items := (turns_effects ht).2.2

/-- **C82** As long as no removal from the empty collection was tried, whoever has a call to make can make it to its end. -/
theorem C82_next_call_comes_to_its_end (h : Heap) (items : List (Option Addr)) (calls : Nat → List Op) (log : List (Op × Out)) (c : Conf)
    (ht : Turns (init h items calls) log c) (h1 : (.pop, .panic) ∉ log) (h2 : (.shift, .panic) ∉ log) (i : Nat) (op : Op) (rest : List Op)
    (hn : (c.gor i).todo = op :: rest) : ∃ c' o, Turns (init h items calls) (log ++ [(op, o)]) c' ∧ (c'.gor i).todo = rest := by
  obtain ⟨hi, hl, _⟩ := turns_effects ht
  have hw : c.stuckW = false := by
    cases e : c.stuckW with
    | false => rfl
    | true => rcases (turns_stuck ht).1 e with h | h
              · exact absurd h h1
              · exact absurd h h2
  obtain ⟨c', o, ha, h3, h4, h5⟩ := call_ends (hi i) hn hw hl
  exact ⟨c', o, .call ht ha (by rw [hn, h3]) h4 h5, h3⟩

/-- **C82** After it, the collection stays as it is and every goroutine whose next call is on the collection waits for ever, whatever the others do. -/
theorem C82_after_removal_from_empty_nothing_more (h : Heap) (items : List (Option Addr)) (calls : Nat → List Op) (log : List (Op × Out)) (c : Conf)
    (ht : Turns (init h items calls) log c) (hp : (.pop, .panic) ∈ log ∨ (.shift, .panic) ∈ log) (c' : Conf) (hr : Reach c c') :
    c'.items = c.items ∧ ∀ i op rest, (c.gor i).todo = op :: rest → (∀ a k v, op ≠ .assign a k v) → c'.gor i = c.gor i := by
  obtain ⟨hi, _, _⟩ := turns_effects ht
  obtain ⟨_, _, h1, h2⟩ := stuck_stays hi ((turns_stuck ht).2 hp) hr
  exact ⟨h1, h2⟩

/-- Non-vacuity: whatever two goroutines plan, they can be let in by turns; here one looks a key up, the other one shifts, the first one pops the empty
collection, and the other one's lookup never begins. -/
def turnHeap : Heap := [.ds [(b!"k", .str b!"v")]]
def turnCalls : Nat → List Op
  | 0 => [.getData b!"k", .pop]
  | 1 => [.shift, .getData b!"k"]
  | _ => []

example : ∃ c, Turns (init turnHeap [some 0] turnCalls)
      [(.getData b!"k", .found b!"k" (some (.str b!"v"))), (.shift, .elem (some 0)), (.pop, .panic)] c ∧
    c.items = [] ∧ ∀ c', Reach c c' → c'.gor 1 = c.gor 1 ∧ (c'.gor 1).todo = [.getData b!"k"] := by
  have t0 : Turns (init turnHeap [some 0] turnCalls) [] (init turnHeap [some 0] turnCalls) := .none
  have a1 := Step.start (c := init turnHeap [some 0] turnCalls) (i := 0) (key := b!"k") (rest := [.pop]) rfl rfl rfl
  have a2 := Step.read (i := 0) (key := b!"k") (n := 0) (d := some 0) (c := _) rfl rfl rfl |> Alone.step (.step .refl a1)
  have a3 := Alone.step a2 (.hit (i := 0) (key := b!"k") (n := 0) (a := 0) (v := .str b!"v") rfl (by decide))
  have t1 := Turns.call (op := .getData b!"k") (o := .found b!"k" (some (.str b!"v"))) t0 a3 rfl rfl rfl
  have t2 := Turns.call (i := 1) (op := .shift) (o := .elem (some 0)) t1 (.step .refl (.shift (rest := [.getData b!"k"]) (l := []) rfl rfl rfl rfl rfl)) rfl rfl rfl
  have t3 := Turns.call (i := 0) (op := .pop) (o := .panic) t2 (.step .refl (.removePanic (rest := []) rfl rfl (.inl rfl) rfl rfl rfl)) rfl rfl rfl
  refine ⟨_, t3, rfl, fun c' hr => ?_⟩
  have h := (C82_after_removal_from_empty_nothing_more _ _ _ _ _ t3 (by simp) c' hr).2 1 _ _ rfl nofun
  exact ⟨h, by rw [h]; rfl⟩

end Xcore.CollectionConc
