import Verif.Model.LanguageAlias
import Verif.Proof.Language

namespace Xcore.Language

/-- The table's maps and the copies are all different, and allocated. -/
structure World.Ok (w : World) : Prop where
  ne : w.entries ≠ w.status
  e_lt : w.entries < w.heap.length
  s_lt : w.status < w.heap.length
  c_lt : ∀ a ∈ w.copies, a < w.heap.length
  c_e : ∀ a ∈ w.copies, a ≠ w.entries
  c_s : ∀ a ∈ w.copies, a ≠ w.status
  c_nodup : w.copies.Nodup

theorem World.new_ok (n t : Str) : (World.new n t).Ok :=
  ⟨by simp [World.new], by simp [World.new], by simp [World.new], by simp [World.new], by simp [World.new], by simp [World.new], by simp [World.new]⟩

theorem at_set (h : List (AMap Str)) (a b : Nat) (m : AMap Str) (ha : a < h.length) :
    (h.set a m).getD b [] = if b = a then m else h.getD b [] := by
  simp only [List.getD_eq_getElem?_getD, List.getElem?_set]
  by_cases e : a = b
  · subst e; simp [ha]
  · have e' : b ≠ a := fun h => e h.symm
    simp [e, e']

theorem World.put_table (w : World) (l : Lang) (h : w.Ok) : (w.put l).table = l := by
  unfold World.table World.put World.at
  simp only
  rw [at_set _ _ _ _ (by rw [List.length_set]; exact h.s_lt), at_set _ _ _ _ h.e_lt,
    at_set _ _ _ _ (by rw [List.length_set]; exact h.s_lt)]
  simp [h.ne]

theorem World.put_at (w : World) (l : Lang) (h : w.Ok) (a : Nat) (ha : a ∈ w.copies) : (w.put l).at a = w.at a := by
  unfold World.put World.at
  simp only
  rw [at_set _ _ _ _ (by rw [List.length_set]; exact h.s_lt), at_set _ _ _ _ h.e_lt]
  simp [h.c_e a ha, h.c_s a ha]

theorem World.put_ok (w : World) (l : Lang) (h : w.Ok) : (w.put l).Ok := by
  obtain ⟨a, b, c, d, e, f, g⟩ := h
  exact ⟨a, by simpa [World.put] using b, by simpa [World.put] using c, by simpa [World.put] using d, e, f, g⟩

theorem World.set_ok (w : World) (a : Nat) (m : AMap Str) (h : w.Ok) : World.Ok { w with heap := w.heap.set a m } := by
  obtain ⟨a, b, c, d, e, f, g⟩ := h
  exact ⟨a, by simpa using b, by simpa using c, by simpa using d, e, f, g⟩

theorem World.getEntries_ok (w : World) (h : w.Ok) : w.getEntries.1.Ok := by
  obtain ⟨a, b, c, d, e, f, g⟩ := h
  refine ⟨a, ?_, ?_, ?_, ?_, ?_, ?_⟩ <;> simp only [World.getEntries, List.length_append, List.length_singleton, List.mem_append, List.mem_singleton]
  · omega
  · omega
  · rintro x (hx | rfl)
    · have := d x hx; omega
    · omega
  · rintro x (hx | rfl)
    · exact e x hx
    · omega
  · rintro x (hx | rfl)
    · exact f x hx
    · omega
  · rw [List.nodup_append]
    refine ⟨g, by simp, ?_⟩
    intro x hx y hy
    simp only [List.mem_singleton] at hy
    have := d x hx
    omega

theorem getD_append_left (h : List (AMap Str)) (a : Nat) (m : AMap Str) (ha : a < h.length) : (h ++ [m]).getD a [] = h.getD a [] := by
  simp only [List.getD_eq_getElem?_getD, List.getElem?_append, if_pos ha]

theorem World.step_ok (um : Str → Option XLang) (pt : Str → Str) (w : World) (e : Event) (h : w.Ok) : (w.step um pt e).Ok := by
  cases e with
  | call op => exact w.put_ok _ h
  | getEntries => exact w.getEntries_ok h
  | callerSet i k v => simp only [World.step]; split; exact w.set_ok _ _ h; exact h
  | callerDel i k => simp only [World.step]; split; exact w.set_ok _ _ h; exact h

theorem World.run_ok (um : Str → Option XLang) (pt : Str → Str) (es : List Event) (w : World) (h : w.Ok) : (w.run um pt es).Ok := by
  induction es generalizing w with
  | nil => exact h
  | cons e es ih => exact ih _ (w.step_ok um pt e h)

/-- The copies handed out stay where they are. -/
theorem World.step_copies (um : Str → Option XLang) (pt : Str → Str) (w : World) (e : Event) (i a : Nat) (h : w.copies[i]? = some a) :
    (w.step um pt e).copies[i]? = some a := by
  cases e with
  | call op => exact h
  | getEntries =>
    have : i < w.copies.length := by
      rcases Nat.lt_or_ge i w.copies.length with h' | h'
      · exact h'
      · rw [List.getElem?_eq_none h'] at h; cases h
    show (w.copies ++ [w.heap.length])[i]? = some a
    rw [List.getElem?_append, if_pos this]; exact h
  | callerSet j k v => simp only [World.step]; split <;> exact h
  | callerDel j k => simp only [World.step]; split <;> exact h

/-- Only calls on the table change the table. -/
theorem World.step_table (um : Str → Option XLang) (pt : Str → Str) (w : World) (e : Event) (h : w.Ok) :
    (w.step um pt e).table = match e with | .call op => Language.step um pt w.table op | _ => w.table := by
  have other : ∀ a ∈ w.copies, ∀ m, World.table { w with heap := w.heap.set a m } = w.table := by
    intro a ha m
    unfold World.table World.at
    simp only
    rw [at_set _ _ _ _ (h.c_lt a ha), at_set _ _ _ _ (h.c_lt a ha), if_neg (Ne.symm (h.c_e a ha)), if_neg (Ne.symm (h.c_s a ha))]
  cases e with
  | call op => exact w.put_table _ h
  | getEntries =>
    unfold World.step World.getEntries World.table World.at
    simp only
    rw [getD_append_left _ _ _ h.e_lt, getD_append_left _ _ _ h.s_lt]
  | callerSet i k v =>
    simp only [World.step]
    split
    · rename_i a ha; exact other a (List.mem_of_getElem? ha) _
    · rfl
  | callerDel i k =>
    simp only [World.step]
    split
    · rename_i a ha; exact other a (List.mem_of_getElem? ha) _
    · rfl

/-- Only the caller's own stores into the i-th copy change it. -/
theorem World.step_at (um : Str → Option XLang) (pt : Str → Str) (w : World) (e : Event) (h : w.Ok) (i a : Nat) (hi : w.copies[i]? = some a) :
    (w.step um pt e).at a = match e with
      | .callerSet j k v => if j = i then (w.at a).set k v else w.at a
      | .callerDel j k => if j = i then (w.at a).del k else w.at a
      | _ => w.at a := by
  have ha := List.mem_of_getElem? hi
  have inj : ∀ j b, w.copies[j]? = some b → (a = b ↔ j = i) := by
    intro j b hj
    constructor
    · rintro rfl
      have h1 : j < w.copies.length := by
        rcases Nat.lt_or_ge j w.copies.length with h' | h'
        · exact h'
        · rw [List.getElem?_eq_none h'] at hj; cases hj
      exact (List.getElem?_inj h1 h.c_nodup).1 (by rw [hi, hj])
    · rintro rfl; rw [hi] at hj; exact Option.some.inj hj
  cases e with
  | call op => exact w.put_at _ h a ha
  | getEntries => exact getD_append_left _ _ _ (h.c_lt a ha)
  | callerSet j k v =>
    simp only [World.step]
    split
    · rename_i b hb
      have hb' := List.mem_of_getElem? hb
      unfold World.at
      simp only
      rw [at_set _ _ _ _ (h.c_lt b hb')]
      by_cases e : a = b
      · subst e; rw [if_pos rfl, if_pos ((inj j a hb).1 rfl)]
      · rw [if_neg e, if_neg (fun e' => e ((inj j b hb).2 e'))]
    · rename_i hb
      rw [if_neg]
      rintro rfl; rw [hi] at hb; cases hb
  | callerDel j k =>
    simp only [World.step]
    split
    · rename_i b hb
      have hb' := List.mem_of_getElem? hb
      unfold World.at
      simp only
      rw [at_set _ _ _ _ (h.c_lt b hb')]
      by_cases e : a = b
      · subst e; rw [if_pos rfl, if_pos ((inj j a hb).1 rfl)]
      · rw [if_neg e, if_neg (fun e' => e ((inj j b hb).2 e'))]
    · rename_i hb
      rw [if_neg]
      rintro rfl; rw [hi] at hb; cases hb

end Xcore.Language
