import Verif.Proof.Slices

/-!
# Property C102: collections do not share memory with each other

Go's `append` writes into the array behind a slice if there is space, so two slices of one array can disturb each other. Here the arrays are modelled
(Model/Slices.lean), with any growth policy of the runtime. Collections that were made by a literal or by `Clone` behave as lists; copies by
assignment do not.
-/

namespace Xcore.Slices

/-- **C102** In every history of calls on any number of collections, in which none is copied by assignment, answers and contents are those of
lists: whatever arrays and capacities the runtime chooses. -/
theorem C102_collections_are_lists (spare : Nat → Nat → Nat) (h : List Op) (ho : ∀ op ∈ h, ¬ Assigns op) :
    lists (run spare ⟨[], []⟩ h).1 = (listRun [] h).1 ∧ (run spare ⟨[], []⟩ h).2 = (listRun [] h).2 := by
  have := (run_ok spare h good_start ho).2
  exact ⟨congrArg Prod.fst this, congrArg Prod.snd this⟩

/-- **C102** Calls that do not change a collection leave its elements alone, however many other collections they change. -/
theorem C102_others_do_not_disturb (spare : Nat → Nat → Nat) (h h' : List Op) (ho : ∀ op ∈ h ++ h', ¬ Assigns op) (c : Nat)
    (hc : c < (run spare ⟨[], []⟩ h).1.cols.length) (hn : ∀ op ∈ h', changes op ≠ some c) :
    (lists (run spare ⟨[], []⟩ (h ++ h')).1)[c]? = (lists (run spare ⟨[], []⟩ h).1)[c]? := by
  obtain ⟨g, _⟩ := run_ok spare h good_start (fun o hm => ho o (by simp [hm]))
  have e := (run_ok spare h' g (fun o hm => ho o (by simp [hm]))).2
  rw [run_append]
  dsimp only
  rw [show lists (run spare (run spare ⟨[], []⟩ h).1 h').1 = (listRun (lists (run spare ⟨[], []⟩ h).1) h').1 from congrArg Prod.fst e]
  exact listRun_other h' hn (by simpa [lists] using hc)

/-- **C102** A clone and its original go their own ways: after `Clone`, calls on one of them do not change what the other contains. -/
theorem C102_clone_is_independent (spare : Nat → Nat → Nat) (h h' : List Op) (ho : ∀ op ∈ h ++ h', ¬ Assigns op) (c : Nat) (cl : Elem → Elem)
    (l : List Elem) (hc : (lists (run spare ⟨[], []⟩ h).1)[c]? = some l) (n : Nat) (hn : n = (run spare ⟨[], []⟩ h).1.cols.length) :
    ((∀ op ∈ h', changes op ≠ some c) → (lists (run spare ⟨[], []⟩ (h ++ .clone c cl :: h')).1)[c]? = some l) ∧
    ((∀ op ∈ h', changes op ≠ some n) → (lists (run spare ⟨[], []⟩ (h ++ .clone c cl :: h')).1)[n]? = some (l.map cl)) := by
  obtain ⟨g, _⟩ := run_ok spare h good_start (fun o hm => ho o (by simp [hm]))
  have e := (run_ok spare (.clone c cl :: h') g (fun o hm => by
    rcases List.mem_cons.1 hm with rfl | hm
    · exact fun x => x
    · exact ho o (by simp [hm]))).2
  have hlt : c < (lists (run spare ⟨[], []⟩ h).1).length := (List.getElem?_eq_some_iff.1 hc).1
  rw [run_append]
  dsimp only
  rw [show lists (run spare (run spare ⟨[], []⟩ h).1 (.clone c cl :: h')).1 = (listRun (lists (run spare ⟨[], []⟩ h).1) (.clone c cl :: h')).1 from
    congrArg Prod.fst e]
  have hn' : n = (lists (run spare ⟨[], []⟩ h).1).length := by rw [hn]; simp [lists]
  generalize lists (run spare ⟨[], []⟩ h).1 = ls at *
  have e1 : listRun ls (.clone c cl :: h') = ((listRun (ls ++ [l.map cl]) h').1, .num ls.length :: (listRun (ls ++ [l.map cl]) h').2) := by
    simp only [listRun, listStep, hc]
  rw [e1]
  refine ⟨fun hx => ?_, fun hx => ?_⟩
  · rw [listRun_other h' hx (by simp; omega), List.getElem?_append_left hlt, hc]
  · rw [listRun_other h' hx (by simp [hn']), hn']; simp

/-- **C102** A copy by assignment (`b := *a`) is not a clone: as long as the array of `a` has space, pushing to the copy replaces the element that was
pushed to the original. -/
theorem C102_copies_by_assignment_are_disturbed (spare : Nat → Nat → Nat) (h : List Op) (ho : ∀ op ∈ h, ¬ Assigns op) (c : Nat) (s : Slice)
    (hc : (run spare ⟨[], []⟩ h).1.cols[c]? = some s) (hroom : s.len < s.cap) (x y : Elem) :
    ∃ l n, (lists (run spare ⟨[], []⟩ h).1)[c]? = some l ∧
      (run spare ⟨[], []⟩ (h ++ [.assign c])).2.getLast? = some (.num n) ∧
      (lists (run spare ⟨[], []⟩ (h ++ [.assign c, .push c x])).1)[c]? = some (l ++ [x]) ∧
      (lists (run spare ⟨[], []⟩ (h ++ [.assign c, .push c x, .push n y])).1)[c]? = some (l ++ [y]) := by
  obtain ⟨g, _⟩ := run_ok spare h good_start ho
  simp only [run_append]
  generalize (run spare ⟨[], []⟩ h).1 = m at *
  have hs := g.ok s (List.mem_of_getElem? hc)
  obtain ⟨hlt, hget⟩ := List.getElem?_eq_some_iff.1 hc
  refine ⟨elems m.arrays s, m.cols.length, by rw [lists_get, hc]; rfl, ?_, ?_, ?_⟩
  · simp [run, step, hc]
  · have h1 : (m.cols ++ [s])[c]? = some s := by rw [List.getElem?_append_left hlt, hc]
    simp only [run, step, hc, h1, push]
    rw [lists_get]
    simp only [List.getElem?_set_self (show c < (m.cols ++ [s]).length by simp; omega), Option.map_some, (append_ok spare hs [x]).1]
  · have h1 : (m.cols ++ [s])[c]? = some s := by rw [List.getElem?_append_left hlt, hc]
    obtain ⟨a, ha, hl⟩ := hs.arr (by omega)
    have hin : append spare m.arrays s [x] = (m.arrays.modify s.arr (write · (s.off + s.len) [x]), { s with len := s.len + 1 }) := by
      unfold append
      rw [if_pos (by simp; omega)]; rfl
    simp only [run, step, hc, h1, push, hin]
    have h2 : ((m.cols ++ [s]).set c { s with len := s.len + 1 })[m.cols.length]? = some s := by
      rw [List.getElem?_set_ne (by omega)]; simp
    simp only [h2]
    rw [lists_get]
    have hget1 : (m.arrays.modify s.arr (write · (s.off + s.len) [x]))[s.arr]? = some (write a (s.off + s.len) [x]) := by
      rw [List.getElem?_modify]; simp [ha]
    have hw : (write a (s.off + s.len) [x]).length = a.length := write_length (by simp; omega)
    have hs1 : Ok (m.arrays.modify s.arr (write · (s.off + s.len) [x])) s := ⟨hs.len, fun _ => ⟨_, hget1, by rw [hw]; exact hl⟩⟩
    have hsame : elems (m.arrays.modify s.arr (write · (s.off + s.len) [x])) s = elems m.arrays s := by
      unfold elems
      rw [hget1, ha]
      simp only [Option.getD_some, write]
      rw [List.append_assoc, List.drop_append_of_le_length (by simp; omega), List.take_append_of_le_length (by simp; omega), List.drop_take,
        List.take_take]
      congr 1; omega
    have hr := (append_ok spare hs1 [y]).1
    have hin2 : append spare (m.arrays.modify s.arr (write · (s.off + s.len) [x])) s [y] =
        ((m.arrays.modify s.arr (write · (s.off + s.len) [x])).modify s.arr (write · (s.off + s.len) [y]), { s with len := s.len + 1 }) := by
      unfold append
      rw [if_pos (by simp; omega)]; rfl
    rw [hin2] at hr ⊢
    dsimp only at hr ⊢
    rw [List.getElem?_set_ne (by omega), List.getElem?_set_self (by simp; omega), Option.map_some, hr, hsame]

/-! ## Cases -/

/-- Go's growth from nothing: capacities 1, 2, 4, 8. -/
def doubling (cap n : Nat) : Nat := if 2 * cap < n then 0 else 2 * cap - n

/-- Three elements pushed into four slots: no calls on other collections are noticed, in whatever order. -/
example : let r := run doubling ⟨[], []⟩ [.make [], .push 0 (some 1), .push 0 (some 2), .push 0 (some 3), .clone 0 id, .push 0 (some 4), .push 1 (some 5),
      .shift 0, .unshift 1 (some 6), .pop 0, .push 0 (some 7), .get 0 2, .count 1]
    lists r.1 = [[some 2, some 3, some 7], [some 6, some 1, some 2, some 3, some 5]] ∧
    r.2 = [.num 0, .unit, .unit, .unit, .num 1, .unit, .unit, .elem (some 1), .unit, .elem (some 4), .unit, .found (some (some 7)), .num 5] := by decide

/-- The hypotheses of the theorem on copies hold after three calls of Push. -/
example : (run doubling ⟨[], []⟩ [.make [], .push 0 (some 1), .push 0 (some 2), .push 0 (some 3)]).1.cols[0]? = some ⟨2, 0, 3, 4⟩ := by decide

/-- The copy overwrites what the original got. -/
example : lists (run doubling ⟨[], []⟩ [.make [], .push 0 (some 1), .push 0 (some 2), .push 0 (some 3), .assign 0, .push 0 (some 4), .push 1 (some 5)]).1 =
    [[some 1, some 2, some 3, some 5], [some 1, some 2, some 3, some 5]] := by decide

end Xcore.Slices
