import Verif.Base.Str

/-!
# Finite maps with string keys

A Go `map[string]V` is an association list. Iteration order of the list stands for one (arbitrary) iteration order of the
Go runtime. The operations keep the keys distinct (`AMap.Nodup`).
-/

namespace Xcore

/-- `map[string]V`. -/
abbrev AMap (V : Type) := List (Str × V)

namespace AMap

variable {V W : Type}

/-- `v, ok := m[k]`. -/
def get : AMap V → Str → Option V
  | [], _ => none
  | (k', v) :: m, k => if k' = k then some v else get m k

/-- `m[k] = v`. -/
def set : AMap V → Str → V → AMap V
  | [], k, v => [(k, v)]
  | (k', v') :: m, k, v => if k' = k then (k, v) :: m else (k', v') :: set m k v

/-- `delete(m, k)`. -/
def del : AMap V → Str → AMap V
  | [], _ => []
  | (k', v') :: m, k => if k' = k then del m k else (k', v') :: del m k

/-- The keys. -/
def keys (m : AMap V) : List Str := m.map Prod.fst

/-- Representation invariant: keys are distinct. -/
def Nodup (m : AMap V) : Prop := (keys m).Nodup

instance (m : AMap V) : Decidable (Nodup m) := inferInstanceAs (Decidable (List.Nodup _))

@[simp] theorem get_nil (k : Str) : get ([] : AMap V) k = none := rfl
@[simp] theorem keys_nil : keys ([] : AMap V) = [] := rfl
@[simp] theorem keys_cons (p : Str × V) (m : AMap V) : keys (p :: m) = p.1 :: keys m := rfl
@[simp] theorem nodup_nil : Nodup ([] : AMap V) := by simp [Nodup]

theorem get_set_self (m : AMap V) (k : Str) (v : V) : get (set m k v) k = some v := by
  induction m with
  | nil => simp [set, get]
  | cons p m ih => obtain ⟨k', v'⟩ := p; simp only [set]; split <;> simp_all [get]

theorem get_set_ne (m : AMap V) {k k' : Str} (v : V) (h : k' ≠ k) : get (set m k v) k' = get m k' := by
  induction m with
  | nil => simp [set, get, h.symm]
  | cons p m ih =>
    obtain ⟨a, b⟩ := p; simp only [set]; split
    · subst_vars; simp [get, Ne.symm h]
    · simp_all [get]

theorem get_set (m : AMap V) (k k' : Str) (v : V) : get (set m k v) k' = if k' = k then some v else get m k' := by
  by_cases h : k' = k
  · subst h; simp [get_set_self]
  · simp [h, get_set_ne _ _ h]

theorem get_del_self (m : AMap V) (k : Str) : get (del m k) k = none := by
  induction m with
  | nil => rfl
  | cons p m ih => obtain ⟨a, b⟩ := p; simp only [del]; split <;> simp_all [get]

theorem get_del_ne (m : AMap V) {k k' : Str} (h : k' ≠ k) : get (del m k) k' = get m k' := by
  induction m with
  | nil => rfl
  | cons p m ih =>
    obtain ⟨a, b⟩ := p; simp only [del]; split
    · subst_vars; simp [get, ih, h.symm]
    · simp_all [get]

theorem get_del (m : AMap V) (k k' : Str) : get (del m k) k' = if k' = k then none else get m k' := by
  by_cases h : k' = k
  · subst h; simp [get_del_self]
  · simp [h, get_del_ne _ h]

theorem mem_keys_iff (m : AMap V) (k : Str) : k ∈ keys m ↔ ∃ v, get m k = some v := by
  induction m with
  | nil => simp
  | cons p m ih =>
    obtain ⟨a, b⟩ := p
    simp only [keys_cons, List.mem_cons, get]
    by_cases h : a = k
    · simp [h]
    · simp [h, ih, Ne.symm h]

theorem get_eq_none_iff (m : AMap V) (k : Str) : get m k = none ↔ k ∉ keys m := by
  rw [mem_keys_iff]
  cases get m k <;> simp

theorem mem_of_get {m : AMap V} {k : Str} {v : V} (h : get m k = some v) : (k, v) ∈ m := by
  induction m with
  | nil => simp at h
  | cons p m ih =>
    obtain ⟨a, b⟩ := p
    simp only [get] at h
    split at h
    · simp_all
    · simp [ih h]

theorem get_of_mem {m : AMap V} (hn : Nodup m) {k : Str} {v : V} (h : (k, v) ∈ m) : get m k = some v := by
  induction m with
  | nil => simp at h
  | cons p m ih =>
    obtain ⟨a, b⟩ := p
    simp only [Nodup, keys_cons, List.nodup_cons] at hn
    simp only [get]
    rcases List.mem_cons.1 h with h | h
    · simp at h; simp [h]
    · have : a ≠ k := by
        rintro rfl
        exact hn.1 (List.mem_map.2 ⟨_, h, rfl⟩)
      simp [this, ih hn.2 h]

theorem keys_set (m : AMap V) (k : Str) (v : V) :
    keys (set m k v) = if k ∈ keys m then keys m else keys m ++ [k] := by
  induction m with
  | nil => simp [set, keys]
  | cons p m ih =>
    obtain ⟨a, b⟩ := p
    simp only [set]
    by_cases h : a = k
    · subst h; simp
    · have h' : k ≠ a := Ne.symm h
      simp only [h, if_false, keys_cons, ih, List.mem_cons, h', false_or]
      split <;> simp

theorem keys_del (m : AMap V) (k : Str) : keys (del m k) = (keys m).filter (fun x => decide (x ≠ k)) := by
  induction m with
  | nil => simp [del]
  | cons p m ih =>
    obtain ⟨a, b⟩ := p
    simp only [del]
    by_cases h : a = k
    · subst h; simp [ih]
    · simp [h, ih]

theorem mem_keys_set (m : AMap V) (k k' : Str) (v : V) : k' ∈ keys (set m k v) ↔ k' = k ∨ k' ∈ keys m := by
  rw [keys_set]; split
  · constructor
    · exact Or.inr
    · rintro (rfl | h) <;> assumption
  · simp [or_comm]

theorem mem_keys_del (m : AMap V) (k k' : Str) : k' ∈ keys (del m k) ↔ k' ≠ k ∧ k' ∈ keys m := by
  rw [keys_del]; simp [and_comm]

theorem nodup_set {m : AMap V} (h : Nodup m) (k : Str) (v : V) : Nodup (set m k v) := by
  unfold Nodup at *
  rw [keys_set]; split
  · exact h
  · rename_i hk
    rw [List.nodup_append]
    refine ⟨h, by simp, ?_⟩
    intro a ha b hb
    simp at hb; subst hb
    rintro rfl; exact hk ha

theorem nodup_del {m : AMap V} (h : Nodup m) (k : Str) : Nodup (del m k) := by
  unfold Nodup at *
  rw [keys_del]; exact h.filter _

theorem length_del_of_mem {m : AMap V} (hn : Nodup m) {k : Str} (h : k ∈ keys m) :
    (del m k).length + 1 = m.length := by
  induction m with
  | nil => simp at h
  | cons p m ih =>
    obtain ⟨a, b⟩ := p
    simp only [Nodup, keys_cons, List.nodup_cons] at hn
    simp only [del]
    by_cases hk : a = k
    · subst hk
      have : del m a = m := by
        have hna := hn.1
        clear ih hn h
        induction m with
        | nil => rfl
        | cons q m ih2 =>
          obtain ⟨c, d⟩ := q
          simp only [keys_cons, List.mem_cons, not_or] at hna
          simp only [del]
          rw [if_neg (Ne.symm hna.1), ih2 hna.2]
      simp [this]
    · simp only [hk, if_false, List.length_cons]
      have : k ∈ keys m := by simpa [Ne.symm hk] using h
      have := ih hn.2 this
      omega

theorem del_of_not_mem {m : AMap V} {k : Str} (h : k ∉ keys m) : del m k = m := by
  induction m with
  | nil => rfl
  | cons q m ih2 =>
    obtain ⟨c, d⟩ := q
    simp only [keys_cons, List.mem_cons, not_or] at h
    simp only [del]
    rw [if_neg (Ne.symm h.1), ih2 h.2]

@[simp] theorem length_keys (m : AMap V) : (keys m).length = m.length := by simp [keys]

theorem length_set (m : AMap V) (k : Str) (v : V) :
    (set m k v).length = if k ∈ keys m then m.length else m.length + 1 := by
  have := congrArg List.length (keys_set m k v)
  rw [length_keys] at this
  rw [this]; split <;> simp

theorem keys_filter_sublist (m : AMap V) (p : Str × V → Bool) : (keys (m.filter p)).Sublist (keys m) := by
  unfold keys; exact List.Sublist.map _ List.filter_sublist

theorem nodup_filter {m : AMap V} (h : Nodup m) (p : Str × V → Bool) : Nodup (m.filter p) :=
  (keys_filter_sublist m p).nodup h

theorem get_filter {m : AMap V} (h : Nodup m) (p : Str × V → Bool) (k : Str) :
    get (m.filter p) k = (get m k).bind (fun v => if p (k, v) then some v else none) := by
  induction m with
  | nil => rfl
  | cons q m ih =>
    obtain ⟨a, b⟩ := q
    simp only [Nodup, keys_cons, List.nodup_cons] at h
    by_cases hk : a = k
    · subst hk
      have hn : get (m.filter p) a = none := by
        rw [get_eq_none_iff]; intro hm
        exact h.1 ((keys_filter_sublist m p).subset hm)
      by_cases hp : p (a, b)
      · simp [List.filter, hp, get]
      · simp [List.filter, hp, get, hn]
    · by_cases hp : p (a, b)
      · simp [List.filter, hp, get, hk, ih h.2]
      · simp [List.filter, hp, get, hk, ih h.2]

theorem ext_get_iff {m m' : AMap V} : (∀ k, get m k = get m' k) → ∀ k, k ∈ keys m ↔ k ∈ keys m' := by
  intro h k; simp only [mem_keys_iff, h]

end AMap

end Xcore
