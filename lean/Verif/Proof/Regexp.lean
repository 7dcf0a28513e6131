import Verif.Model.Regexp

/-! # The lexers and the regular expression -/

namespace Xcore.Regexp

open Xcore.Template (Kind Param Match firstPass)

/-! ## Runes -/

theorem ite_both {α : Type} {c : Prop} [Decidable c] {P : α → Prop} {a b : α} (h1 : c → P a) (h2 : ¬ c → P b) : P (if c then a else b) := by
  split
  · exact h1 ‹_›
  · exact h2 ‹_›

theorem firstRune_ascii {a : UInt8} {t : Str} (h : a.toNat < 128) : firstRune (a :: t) = some (a.toNat, 1) := by
  simp [firstRune, Xml.decodeRune, h]

/-- A rune that is not ASCII: its number, its width and its other bytes are not those of ASCII characters. -/
theorem firstRune_wide {a : UInt8} {t : Str} (h : 128 ≤ a.toNat) :
    ∃ r k, firstRune (a :: t) = some (r, k + 1) ∧ 128 ≤ r ∧ r ≤ 0x10FFFF ∧ ∀ i, i < k → ∃ b, t[i]? = some b ∧ 128 ≤ b.toNat := by
  have ha : a.toNat < 256 := a.toNat_lt
  have x1 : (0x80 : UInt8).toNat = 0x80 := rfl
  have x2 : (0xBF : UInt8).toNat = 0xBF := rfl
  let P : Option (Nat × Nat) → Prop := fun x =>
    ∃ r k, some (x.getD (0xFFFD, 1)) = some (r, k + 1) ∧ 128 ≤ r ∧ r ≤ 0x10FFFF ∧ ∀ i, i < k → ∃ b, t[i]? = some b ∧ 128 ≤ b.toNat
  have bad : P none := ⟨0xFFFD, 0, rfl, by decide, by decide, by intro i hi; omega⟩
  simp only [firstRune, reduceCtorEq, if_false, Xml.decodeRune]
  rw [if_neg (by omega)]
  change P _
  cases t with
  | nil => exact bad
  | cons b t =>
    have hb : b.toNat < 256 := b.toNat_lt
    simp only
    refine ite_both (P := P) (fun h2 => ?_) fun _ => ?_
    · have h2 := h2
      simp only [Xml.cont, decide_eq_true_eq, x1, x2] at h2
      refine ⟨_, 1, rfl, by omega, by omega, ?_⟩
      intro i hi
      obtain rfl : i = 0 := by omega
      exact ⟨b, rfl, by omega⟩
    · cases t with
      | nil => exact bad
      | cons c t =>
        have hc : c.toNat < 256 := c.toNat_lt
        simp only
        refine ite_both (P := P) (fun h2 => ?_) fun _ => ?_
        · have h2 := h2
          simp only [Xml.cont, decide_eq_true_eq, x1, x2] at h2
          have hb1 : 0x80 ≤ b.toNat ∧ (a = 0xE0 → 0xA0 ≤ b.toNat) := by
            have := h2.2.2.1.1
            by_cases e : a = 0xE0
            · rw [if_pos e] at this; exact ⟨by have : (0xA0 : UInt8).toNat = 0xA0 := rfl; omega, fun _ => this⟩
            · rw [if_neg e, x1] at this; exact ⟨this, fun e' => absurd e' e⟩
          have he : a.toNat = 0xE0 → 0xA0 ≤ b.toNat := fun e => hb1.2 (UInt8.toNat_inj.1 e)
          refine ⟨_, 2, rfl, by omega, by omega, ?_⟩
          intro i hi
          rcases (show i = 0 ∨ i = 1 by omega) with rfl | rfl
          · exact ⟨b, rfl, hb1.1⟩
          · exact ⟨c, rfl, by omega⟩
        · cases t with
          | nil => exact bad
          | cons d t =>
            have hd : d.toNat < 256 := d.toNat_lt
            simp only
            refine ite_both (P := P) (fun h2 => ?_) fun _ => ?_
            · have h2 := h2
              simp only [Xml.cont, decide_eq_true_eq, x1, x2] at h2
              have hb1 : 0x80 ≤ b.toNat ∧ (a = 0xF0 → 0x90 ≤ b.toNat) := by
                have := h2.2.2.1.1
                by_cases e : a = 0xF0
                · rw [if_pos e] at this; exact ⟨by have : (0x90 : UInt8).toNat = 0x90 := rfl; omega, fun _ => this⟩
                · rw [if_neg e, x1] at this; exact ⟨this, fun e' => absurd e' e⟩
              have hb2 : b.toNat ≤ 0xBF ∧ (a = 0xF4 → b.toNat ≤ 0x8F) := by
                have := h2.2.2.1.2
                by_cases e : a = 0xF4
                · rw [if_pos e] at this; exact ⟨by have : (0x8F : UInt8).toNat = 0x8F := rfl; omega, fun _ => this⟩
                · rw [if_neg e, x2] at this; exact ⟨this, fun e' => absurd e' e⟩
              have he : a.toNat = 0xF0 → 0x90 ≤ b.toNat := fun e => hb1.2 (UInt8.toNat_inj.1 e)
              have hf : a.toNat = 0xF4 → b.toNat ≤ 0x8F := fun e => hb2.2 (UInt8.toNat_inj.1 e)
              refine ⟨_, 3, rfl, by omega, by omega, ?_⟩
              intro i hi
              rcases (show i = 0 ∨ i = 1 ∨ i = 2 by omega) with rfl | rfl | rfl
              · exact ⟨b, rfl, hb1.1⟩
              · exact ⟨c, rfl, by omega⟩
              · exact ⟨d, rfl, by omega⟩
            · exact bad

/-! ## The first match, in continuation style -/

/-- The first of the matches at the start of the text with which the rest succeeds. -/
def first {β : Type} (r : Re) (s : Str) (k : Str → Caps → Option β) : Option β := (run r s).findSome? fun p => k p.1 p.2

variable {β : Type}

theorem findSome_flatMap {α γ : Type} (l : List α) (f : α → List γ) (g : γ → Option β) :
    (l.flatMap f).findSome? g = l.findSome? fun a => (f a).findSome? g := by
  induction l with
  | nil => rfl
  | cons a l ih => rw [List.flatMap_cons, List.findSome?_append, ih, List.findSome?_cons]; cases (f a).findSome? g <;> rfl

theorem matchHere_first (r : Re) (s : Str) : matchHere r s = first r s fun s1 c => some (s1, c) := by
  unfold matchHere first
  cases run r s <;> rfl

theorem first_map {γ : Type} (r : Re) (s : Str) (k : Str → Caps → Option β) (f : β → γ) :
    (first r s k).map f = first r s fun s1 c => (k s1 c).map f := by
  unfold first
  rw [List.map_findSome?]; rfl

theorem first_eps (s : Str) (k : Str → Caps → Option β) : first .eps s k = k s [] := by
  unfold first; simp only [run, List.findSome?_cons, List.findSome?_nil]; cases k s [] <;> rfl

theorem first_cat (a b : Re) (s : Str) (k : Str → Caps → Option β) :
    first (.cat a b) s k = first a s fun s1 c1 => first b s1 fun s2 c2 => k s2 (c1 ++ c2) := by
  unfold first
  simp only [run, findSome_flatMap, List.findSome?_map]
  rfl

theorem first_alt (a b : Re) (s : Str) (k : Str → Caps → Option β) : first (.alt a b) s k = (first a s k).or (first b s k) := by
  unfold first
  simp only [run, List.findSome?_append]

theorem first_opt (a : Re) (s : Str) (k : Str → Caps → Option β) : first (.opt a) s k = (first a s k).or (k s []) := by
  unfold first
  simp only [run, List.findSome?_append, List.findSome?_cons, List.findSome?_nil]
  cases k s [] <;> rfl

theorem first_group (n : Nat) (a : Re) (s : Str) (k : Str → Caps → Option β) :
    first (.group n a) s k = first a s fun s1 c => k s1 ((n, s.take (s.length - s1.length)) :: c) := by
  unfold first
  simp only [run, List.findSome?_map]
  rfl

/-- More rounds than bytes change nothing. -/
theorem loop_eq (f : Str → List (Str × Caps)) : ∀ (n m : Nat) (s : Str), s.length ≤ n → s.length ≤ m → loop f n s = loop f m s := by
  have zero : ∀ (m : Nat) (s : Str), s.length ≤ 0 → loop f m s = [(s, [])] := by
    intro m s h
    obtain rfl : s = [] := List.length_eq_zero_iff.1 (by omega)
    cases m with
    | zero => rfl
    | succ m => simp [loop]
  intro n
  induction n with
  | zero => intro m s h _; rw [zero 0 s h, zero m s h]
  | succ n ih =>
    intro m s h1 h2
    cases m with
    | zero => rw [zero _ s h2, zero _ s h2]
    | succ m =>
      simp only [loop]
      congr 2
      funext p
      split
      · rw [ih m p.1 (by omega) (by omega)]
      · rfl

theorem first_star (a : Re) (s : Str) (k : Str → Caps → Option β) :
    first (.lazyStar a) s k = (k s []).or (first a s fun s1 c1 =>
      if s1.length < s.length then first (.lazyStar a) s1 fun s2 c2 => k s2 (c1 ++ c2) else none) := by
  have e : run (.lazyStar a) s = (s, []) :: (run a s).flatMap fun p =>
      if p.1.length < s.length then (run (.lazyStar a) p.1).map fun q => (q.1, p.2 ++ q.2) else [] := by
    simp only [run]
    rw [loop_eq (run a) s.length (s.length + 1) s (by omega) (by omega)]
    simp only [loop]
    congr 2
    funext p
    split
    · rw [loop_eq (run a) s.length p.1.length p.1 (by omega) (by omega)]
    · rfl
  unfold first
  rw [e]
  simp only [List.findSome?_cons, findSome_flatMap]
  cases k s [] with
  | some v => rfl
  | none =>
    simp only [Option.none_or]
    congr 1
    funext p
    split
    · rw [List.findSome?_map]; rfl
    · rfl

theorem first_plus (a : Re) (s : Str) (k : Str → Caps → Option β) :
    first (.lazyPlus a) s k = first (.cat a (.lazyStar a)) s k := by
  simp only [first, run]

theorem first_set (rs : List (Nat × Nat)) (s : Str) (k : Str → Caps → Option β) :
    first (.set rs) s k = match firstRune s with
      | none => none
      | some (r, w) => if rs.any fun p => decide (p.1 ≤ r ∧ r ≤ p.2) then k (s.drop w) [] else none := by
  unfold first
  simp only [run]
  cases firstRune s with
  | none => rfl
  | some p =>
    simp only
    split
    · simp only [List.findSome?_cons, List.findSome?_nil]; cases k (s.drop p.2) [] <;> rfl
    · rfl

/-- A set of ASCII characters. -/
theorem first_ascii {rs : List (Nat × Nat)} {cls : UInt8 → Bool} (hrs : ∀ p ∈ rs, p.2 < 128)
    (hc : ∀ a : UInt8, a.toNat < 128 → (rs.any fun p => decide (p.1 ≤ a.toNat ∧ a.toNat ≤ p.2)) = cls a)
    (hw : ∀ a : UInt8, 128 ≤ a.toNat → cls a = false) (s : Str) (k : Str → Caps → Option β) :
    first (.set rs) s k = match s with
      | [] => none
      | a :: t => if cls a then k t [] else none := by
  rw [first_set]
  cases s with
  | nil => rfl
  | cons a t =>
    by_cases h : a.toNat < 128
    · rw [firstRune_ascii h]; simp only [hc a h, List.drop_succ_cons, List.drop_zero]
    · obtain ⟨r, n, e, h1, _⟩ := firstRune_wide (a := a) (t := t) (by omega)
      rw [e]
      have : (rs.any fun p => decide (p.1 ≤ r ∧ r ≤ p.2)) = false := by
        rw [List.any_eq_false]
        intro p hp
        have := hrs p hp
        simp; omega
      simp only [this, hw a (by omega)]
      rfl

/-- One ASCII character. -/
theorem first_char (n : Nat) (h : n < 128) (s : Str) (k : Str → Caps → Option β) :
    first (.set [(n, n)]) s k = match s with
      | [] => none
      | a :: t => if a = UInt8.ofNat n then k t [] else none := by
  rw [first_ascii (cls := fun a => decide (a = UInt8.ofNat n)) (by simp; omega) _ _ s k]
  · cases s <;> simp
  · intro a ha
    simp only [List.any_cons, List.any_nil, Bool.or_false]
    congr 1
    rw [← UInt8.toNat_inj]
    simp only [UInt8.toNat_ofNat', eq_iff_iff]
    omega
  · intro a ha
    simp only [decide_eq_false_iff_not, ← UInt8.toNat_inj, UInt8.toNat_ofNat']
    omega

/-- The first suffix of a text with which the rest succeeds. -/
def scan (k : Str → Option β) : Str → Option β
  | [] => k []
  | a :: t => (k (a :: t)).or (scan k t)

theorem scan_skip {k : Str → Option β} (hk : ∀ a t, 128 ≤ a.toNat → k (a :: t) = none) :
    ∀ (n : Nat) (t : Str), (∀ i, i < n → ∃ b, t[i]? = some b ∧ 128 ≤ b.toNat) → scan k t = scan k (t.drop n) := by
  intro n
  induction n with
  | zero => intro t _; rfl
  | succ n ih =>
    intro t h
    cases t with
    | nil => rfl
    | cons a t =>
      obtain ⟨b, e, hb⟩ := h 0 (by omega)
      simp at e
      subst e
      rw [scan, hk _ _ hb, Option.none_or, List.drop_succ_cons]
      exact ih t fun i hi => by simpa using h (i + 1) (by omega)

/-- `(.*?)` before something that does not begin with a byte above the ASCII range. -/
theorem first_any {k : Str → Option β} (hk : ∀ a t, 128 ≤ a.toNat → k (a :: t) = none) :
    ∀ (n : Nat) (s : Str), s.length ≤ n → first (.lazyStar (.set [(0, 0x10FFFF)])) s (fun s1 _ => k s1) = scan k s := by
  intro n
  induction n with
  | zero =>
    intro s h
    obtain rfl : s = [] := List.length_eq_zero_iff.1 (by omega)
    rw [first_star, first_set]
    simp [firstRune, scan]
  | succ n ih =>
    intro s h
    rw [first_star, first_set]
    cases s with
    | nil => simp [firstRune, scan]
    | cons a t =>
      rw [scan]
      congr 1
      simp only [List.length_cons] at h
      by_cases ha : a.toNat < 128
      · rw [firstRune_ascii ha]
        have : ([(0, 0x10FFFF)] : List (Nat × Nat)).any (fun p => decide (p.1 ≤ a.toNat ∧ a.toNat ≤ p.2)) = true := by simp; omega
        simp only [this, if_true, List.drop_succ_cons, List.drop_zero, List.length_cons]
        rw [if_pos (by omega)]
        exact ih t (by omega)
      · obtain ⟨r, w, e, _, h2, h3⟩ := firstRune_wide (a := a) (t := t) (by omega)
        rw [e]
        have : ([(0, 0x10FFFF)] : List (Nat × Nat)).any (fun p => decide (p.1 ≤ r ∧ r ≤ p.2)) = true := by simp; omega
        simp only [this, if_true, List.drop_succ_cons, List.length_cons, List.length_drop]
        rw [if_pos (by omega), ih (t.drop w) (by simp; omega)]
        exact (scan_skip hk w t h3).symm

/-- `[class]*?` before something that does not begin with a character of the class. -/
theorem first_class {rs : List (Nat × Nat)} {cls : UInt8 → Bool} (hrs : ∀ p ∈ rs, p.2 < 128)
    (hc : ∀ a : UInt8, a.toNat < 128 → (rs.any fun p => decide (p.1 ≤ a.toNat ∧ a.toNat ≤ p.2)) = cls a)
    (hw : ∀ a : UInt8, 128 ≤ a.toNat → cls a = false) {k : Str → Option β} (hk : ∀ a t, cls a = true → k (a :: t) = none) (s : Str) :
    first (.lazyStar (.set rs)) s (fun s1 _ => k s1) = k (s.dropWhile cls) := by
  induction s with
  | nil =>
    rw [first_star, first_ascii hrs hc hw]
    simp
  | cons a t ih =>
    rw [first_star, first_ascii hrs hc hw]
    simp only
    by_cases ha : cls a = true
    · rw [if_pos ha, hk a t ha, if_pos (by simp), List.dropWhile_cons_of_pos ha, Option.none_or]
      exact ih
    · rw [if_neg ha, Option.or_none, List.dropWhile_cons_of_neg ha]

/-! ## Captures inside of loops: none -/

theorem first_congr {r : Re} {s : Str} {k k' : Str → Caps → Option β} (h : ∀ p ∈ run r s, k p.1 p.2 = k' p.1 p.2) : first r s k = first r s k' := by
  unfold first
  generalize run r s = l at h
  induction l with
  | nil => rfl
  | cons p l ih =>
    rw [List.findSome?_cons, List.findSome?_cons, h p (by simp), ih fun q hq => h q (by simp [hq])]

theorem run_set_caps (rs : List (Nat × Nat)) (s : Str) : ∀ p ∈ run (.set rs) s, p.2 = [] := by
  intro p hp
  simp only [run] at hp
  split at hp
  · cases hp
  · split at hp
    · rw [List.mem_singleton] at hp; rw [hp]
    · cases hp

theorem loop_caps {f : Str → List (Str × Caps)} (hf : ∀ s, ∀ p ∈ f s, p.2 = []) : ∀ (n : Nat) (s : Str), ∀ p ∈ loop f n s, p.2 = [] := by
  intro n
  induction n with
  | zero => intro s p hp; simp only [loop, List.mem_singleton] at hp; rw [hp]
  | succ n ih =>
    intro s p hp
    simp only [loop, List.mem_cons, List.mem_flatMap] at hp
    rcases hp with rfl | ⟨q, hq, h⟩
    · rfl
    · split at h
      · obtain ⟨q', h1, rfl⟩ := List.mem_map.1 h
        simp [hf s q hq, ih _ q' h1]
      · cases h

theorem first_star_caps (rs : List (Nat × Nat)) (s : Str) (k : Str → Caps → Option β) :
    first (.lazyStar (.set rs)) s k = first (.lazyStar (.set rs)) s fun s1 _ => k s1 [] :=
  first_congr fun p hp => by rw [loop_caps (run_set_caps rs) _ _ p hp]

/-! ## Loops of at least one round -/

theorem first_plus_any {k : Str → Option β} (hk : ∀ a t, 128 ≤ a.toNat → k (a :: t) = none) (s : Str) :
    first (.lazyPlus (.set [(0, 0x10FFFF)])) s (fun s1 _ => k s1) = match s with
      | [] => none
      | _ :: t => scan k t := by
  rw [first_plus, first_cat, first_set]
  cases s with
  | nil => rfl
  | cons a t =>
    by_cases ha : a.toNat < 128
    · rw [firstRune_ascii ha]
      have : ([(0, 0x10FFFF)] : List (Nat × Nat)).any (fun p => decide (p.1 ≤ a.toNat ∧ a.toNat ≤ p.2)) = true := by simp; omega
      simp only [this, if_true, List.drop_succ_cons, List.drop_zero]
      exact first_any hk t.length t (Nat.le_refl _)
    · obtain ⟨r, w, e, _, h2, h3⟩ := firstRune_wide (a := a) (t := t) (by omega)
      rw [e]
      have : ([(0, 0x10FFFF)] : List (Nat × Nat)).any (fun p => decide (p.1 ≤ r ∧ r ≤ p.2)) = true := by simp; omega
      simp only [this, if_true, List.drop_succ_cons]
      rw [first_any hk (t.drop w).length _ (Nat.le_refl _)]
      exact (scan_skip hk w t h3).symm

theorem first_plus_class {rs : List (Nat × Nat)} {cls : UInt8 → Bool} (hrs : ∀ p ∈ rs, p.2 < 128)
    (hc : ∀ a : UInt8, a.toNat < 128 → (rs.any fun p => decide (p.1 ≤ a.toNat ∧ a.toNat ≤ p.2)) = cls a)
    (hw : ∀ a : UInt8, 128 ≤ a.toNat → cls a = false) {k : Str → Option β} (hk : ∀ a t, cls a = true → k (a :: t) = none) (s : Str) :
    first (.lazyPlus (.set rs)) s (fun s1 _ => k s1) = if s.takeWhile cls = [] then none else k (s.dropWhile cls) := by
  rw [first_plus, first_cat, first_ascii hrs hc hw]
  cases s with
  | nil => rfl
  | cons a t =>
    simp only
    by_cases ha : cls a = true
    · rw [if_pos ha, first_class hrs hc hw hk, List.takeWhile_cons_of_pos ha, List.dropWhile_cons_of_pos ha, if_neg (by simp)]
    · rw [if_neg ha, List.takeWhile_cons_of_neg ha, if_pos rfl]

theorem first_plus_caps (rs : List (Nat × Nat)) (s : Str) (k : Str → Caps → Option β) :
    first (.lazyPlus (.set rs)) s k = first (.lazyPlus (.set rs)) s fun s1 _ => k s1 [] :=
  first_congr fun p hp => by
    simp only [run, List.mem_flatMap] at hp
    obtain ⟨q, h1, h2⟩ := hp
    obtain ⟨q', h3, rfl⟩ := List.mem_map.1 h2
    have := run_set_caps rs s q (by simpa only [run] using h1)
    have := loop_caps (run_set_caps rs) _ _ q' h3
    simp [*]

/-! ## The pieces of the expressions -/

/-- A character. -/
def ch (n : Nat) : Re := .set [(n, n)]

/-- Any rune. -/
def anyRune : Re := .set [(0, 0x10FFFF)]

/-- `(\n|\r|\r\n|\n\r)?` -/
def eolRe (g : Nat) : Re := .opt (.group g (.alt (.cat (ch 10) .eps) (.alt (.cat (ch 13) .eps)
  (.alt (.cat (ch 13) (.cat (ch 10) .eps)) (.cat (ch 10) (.cat (ch 13) .eps))))))

/-- Comments. -/
def commentRe : Re := .cat (.group 1 (.cat (ch 37) .eps)) (.cat (ch 45) (.cat (ch 45) (.cat (.group 2 (.cat (.lazyStar anyRune) .eps))
  (.cat (ch 45) (.cat (ch 45) (.cat (ch 37) (.cat (eolRe 3) .eps)))))))

/-- An element between two characters and two characters; the group of its name is followed by `tail`. -/
def elemRe (g o c : Nat) (body tail : Re) : Re := .cat (.group g (.cat (ch o) .eps)) (.cat (ch o) (.cat (.group (g + 1) (.cat (.lazyPlus body) .eps))
  (.cat (ch c) (.cat (ch c) tail))))

/-- The end of a box. -/
def stopRe : Re := .cat (ch 91) (.cat (ch 91) (.cat (.group 16 (.cat (ch 93) .eps)) (.cat (ch 93) (.cat (eolRe 17) .eps))))

def langSet : Re := .set [(97, 122), (65, 90), (48, 57), (45, 45), (95, 95), (46, 46)]

def elemSet : Re := .set [(97, 122), (65, 90), (48, 57), (45, 45), (95, 95), (61, 61), (62, 62), (58, 58), (124, 124), (46, 46)]

def boxSet : Re := .set [(97, 122), (48, 57), (124, 124), (46, 46), (45, 45), (95, 95)]

/-- The start of a box. -/
def startRe : Re := elemRe 18 91 93 boxSet (.cat (eolRe 20) .eps)

theorem parse_code : parse code = some (.alt commentRe (.alt (elemRe 4 35 35 langSet .eps) (.alt (elemRe 6 38 38 elemSet .eps)
    (.alt (elemRe 8 64 64 elemSet .eps) (.alt (elemRe 10 63 63 elemSet .eps) (.alt (elemRe 12 33 33 elemSet .eps)
    (.alt (elemRe 14 123 125 elemSet .eps) (.alt stopRe startRe)))))))) := by decide +kernel

theorem parse_codeV1 : parse codeV1 = some (.alt commentRe (.alt (elemRe 4 35 35 anyRune .eps) (.alt (elemRe 6 38 38 anyRune .eps)
    (.alt (elemRe 8 64 64 anyRune .eps) (.alt (elemRe 10 63 63 anyRune .eps) (.alt (elemRe 12 33 33 anyRune .eps)
    (.alt (elemRe 14 123 125 anyRune .eps) (.alt stopRe startRe)))))))) := by decide +kernel

theorem first_ch (n : Nat) (h : n < 128) (s : Str) (k : Str → Caps → Option β) :
    first (ch n) s k = match s with
      | [] => none
      | a :: t => if a = UInt8.ofNat n then k t [] else none := first_char n h s k

theorem first_eol {g : Nat} {s : Str} {k : Str → Caps → Option β} {k' : Str → β} (h : ∀ s1 t, k s1 [(g, t)] = some (k' s1))
    (h0 : ∀ s1, k s1 [] = some (k' s1)) : first (eolRe g) s k = some (k' (s.drop (Template.eol s))) := by
  simp only [eolRe, first_opt, first_group, first_alt, first_cat, first_eps, first_ch 10 (by decide), first_ch 13 (by decide), List.append_nil, h, h0]
  cases s with
  | nil => simp [Template.eol]
  | cons a t =>
    by_cases h1 : a = 10
    · subst h1; simp [Template.eol]
    · by_cases h2 : a = 13
      · subst h2; simp [Template.eol]
      · simp [Template.eol, h1, h2]

/-! ### Until a delimiter -/

theorem untilClose_eq (s : Str) : Template.untilClose s = V1.Template.untilDelim b!"--%" s := by
  induction s with
  | nil => rfl
  | cons a s ih => simp only [Template.untilClose, V1.Template.untilDelim, ih]

theorem scan_delim {cl : Str} (hcl : cl ≠ []) {k : Str → Option β} (h0 : ∀ s, cl.isPrefixOf s = false → k s = none)
    (h1 : ∀ s, cl.isPrefixOf s = true → (k s).isSome = true) (s : Str) :
    scan k s = (V1.Template.untilDelim cl s).bind fun d => k (s.drop d.length) := by
  induction s with
  | nil =>
    rw [scan, h0]
    · rfl
    · cases cl with
      | nil => exact absurd rfl hcl
      | cons a cl => rfl
  | cons a s ih =>
    rw [scan, V1.Template.untilDelim]
    cases hp : cl.isPrefixOf (a :: s) with
    | true =>
      obtain ⟨v, hv⟩ := Option.isSome_iff_exists.1 (h1 _ hp)
      simp [hv]
    | false =>
      rw [h0 _ hp, ih]
      simp only [Option.none_or, Bool.false_eq_true, if_false, Option.bind_map]
      rfl

theorem untilDelim_prefix {cl s d : Str} (h : V1.Template.untilDelim cl s = some d) : ∃ r, s = d ++ cl ++ r := by
  induction s generalizing d with
  | nil => cases h
  | cons a s ih =>
    rw [V1.Template.untilDelim] at h
    split at h
    · rename_i hp
      cases h
      obtain ⟨r, hr⟩ := List.isPrefixOf_iff_prefix.1 hp
      exact ⟨r, by simpa using hr.symm⟩
    · obtain ⟨d', h1, rfl⟩ := Option.map_eq_some_iff.1 h
      obtain ⟨r, rfl⟩ := ih h1
      exact ⟨r, by simp⟩

theorem drop_takeWhile (cls : UInt8 → Bool) (s : Str) : s.drop (s.takeWhile cls).length = s.dropWhile cls := by
  have h := List.takeWhile_append_dropWhile (p := cls) (l := s)
  conv => lhs; arg 2; rw [← h]
  rw [List.drop_left]

theorem take_dropWhile (cls : UInt8 → Bool) (s : Str) : s.take (s.length - (s.dropWhile cls).length) = s.takeWhile cls := by
  have h := List.takeWhile_append_dropWhile (p := cls) (l := s)
  have h2 : s.length = (s.takeWhile cls).length + (s.dropWhile cls).length := by
    rw [← List.length_append, h]
  rw [show s.length - (s.dropWhile cls).length = (s.takeWhile cls).length by omega]
  conv => lhs; arg 2; rw [← h]
  rw [List.take_left]

/-! ## Each alternative -/

/-- What is kept of a match. -/
def keep (s : Str) (s1 : Str) (c : Caps) : Option (Param × Nat) := some (paramOf c, s.length - s1.length)

/-- A literal text and then `r`. -/
def lit : List Nat → Re → Re
  | [], r => r
  | n :: ns, r => .cat (ch n) (lit ns r)

theorem first_lit (ns : List Nat) (h : ∀ n ∈ ns, n < 128) (r : Re) (s : Str) (k : Str → Caps → Option β) :
    first (lit ns r) s k = if (ns.map UInt8.ofNat).isPrefixOf s then first r (s.drop ns.length) k else none := by
  induction ns generalizing s with
  | nil => simp [lit]
  | cons n ns ih =>
    rw [lit, first_cat, first_ch n (h n (by simp))]
    cases s with
    | nil => simp
    | cons a t =>
      simp only [List.nil_append, ih (fun m hm => h m (by simp [hm])), List.map_cons, List.isPrefixOf_cons_cons, Bool.and_eq_true, beq_iff_eq,
        List.length_cons, List.drop_succ_cons]
      by_cases e : a = UInt8.ofNat n
      · simp [e]
      · rw [if_neg e, if_neg (fun h' => e h'.1.symm)]

theorem first_gch (g n : Nat) (h : n < 128) (r : Re) (s : Str) (k : Str → Caps → Option β) :
    first (.cat (.group g (.cat (ch n) .eps)) r) s k =
      if [UInt8.ofNat n].isPrefixOf s then first r (s.drop 1) (fun s2 c2 => k s2 ((g, [UInt8.ofNat n]) :: c2)) else none := by
  simp only [first_cat, first_group, first_eps, first_ch n h]
  cases s with
  | nil => rfl
  | cons a t =>
    by_cases e : a = UInt8.ofNat n
    · subst e
      have e2 : ([UInt8.ofNat n].isPrefixOf (UInt8.ofNat n :: t)) = true := by simp
      have e3 : (UInt8.ofNat n :: t).length - t.length = 1 := by simp
      rw [e2]
      simp only [e3, if_true, List.drop_succ_cons, List.drop_zero, List.take_succ_cons, List.take_zero, List.cons_append, List.nil_append]
    · have e2 : ([UInt8.ofNat n].isPrefixOf (a :: t)) = false := by
        cases e3 : [UInt8.ofNat n].isPrefixOf (a :: t) with
        | false => rfl
        | true => simp at e3; exact absurd e3.symm e
      simp only [e2, e, if_false]
      rfl

theorem first_glit (g n : Nat) (ns : List Nat) (h : ∀ m ∈ n :: ns, m < 128) (r : Re) (s : Str) (k : Str → Caps → Option β) :
    first (.cat (.group g (.cat (ch n) .eps)) (lit ns r)) s k =
      if ((n :: ns).map UInt8.ofNat).isPrefixOf s then
        first r (s.drop (n :: ns).length) (fun s2 c2 => k s2 ((g, [UInt8.ofNat n]) :: c2)) else none := by
  rw [first_gch g n (h n (by simp))]
  cases s with
  | nil => rfl
  | cons a t =>
    simp only [first_lit ns (fun m hm => h m (by simp [hm])), List.map_cons, List.isPrefixOf_cons_cons, List.drop_succ_cons, List.drop_zero,
      List.length_cons, Bool.and_eq_true]
    by_cases e : (UInt8.ofNat n == a) = true
    · rw [if_pos ⟨e, rfl⟩]
      by_cases e2 : (ns.map UInt8.ofNat).isPrefixOf t = true
      · rw [if_pos e2, if_pos ⟨e, e2⟩]
      · rw [if_neg e2, if_neg (fun h => e2 h.2)]
    · rw [if_neg (fun h => e h.1), if_neg (fun h => e h.1)]

theorem first_lit_bytes {bs : Str} (ns : List Nat) (h : ∀ n ∈ ns, n < 128) (hb : ns.map UInt8.ofNat = bs) (r : Re) (s : Str) (k : Str → Caps → Option β) :
    first (lit ns r) s k = if bs.isPrefixOf s then first r (s.drop ns.length) k else none := hb ▸ first_lit ns h r s k

theorem first_glit_bytes {bs : Str} (g n : Nat) (ns : List Nat) (h : ∀ m ∈ n :: ns, m < 128) (hb : (n :: ns).map UInt8.ofNat = bs) (r : Re) (s : Str)
    (k : Str → Caps → Option β) :
    first (.cat (.group g (.cat (ch n) .eps)) (lit ns r)) s k =
      if bs.isPrefixOf s then first r (s.drop (n :: ns).length) (fun s2 c2 => k s2 ((g, [UInt8.ofNat n]) :: c2)) else none :=
  hb ▸ first_glit g n ns h r s k

/-- What does not begin with the delimiter does not begin with a byte above the ASCII range. -/
theorem prefix_wide {x : UInt8} {l : Str} (hx : x.toNat < 128) {a : UInt8} {t : Str} (ha : 128 ≤ a.toNat) : (x :: l).isPrefixOf (a :: t) = false := by
  cases e : (x :: l).isPrefixOf (a :: t) with
  | false => rfl
  | true =>
    simp only [List.isPrefixOf_cons_cons, Bool.and_eq_true, beq_iff_eq] at e
    rw [e.1] at hx
    omega

theorem comment_eq (s : Str) : first commentRe s (keep s) = Template.commentAt s := by
  have e1 : commentRe = .cat (.group 1 (.cat (ch 37) .eps)) (lit [45, 45] (.cat (.group 2 (.cat (.lazyStar anyRune) .eps))
    (lit [45, 45, 37] (.cat (eolRe 3) .eps)))) := rfl
  rw [e1, first_glit_bytes (bs := b!"%--") 1 37 [45, 45] (by decide) rfl]
  unfold Template.commentAt
  by_cases h : b!"%--" <+: s
  case neg =>
    rw [if_neg (by rwa [List.isPrefixOf_iff_prefix]), if_neg (by rwa [List.isPrefixOf_iff_prefix])]
  case pos =>
    rw [if_pos (by rwa [List.isPrefixOf_iff_prefix]), if_pos (by rwa [List.isPrefixOf_iff_prefix])]
    obtain ⟨t, rfl⟩ := h
    simp only [List.drop_succ_cons, List.drop_zero, List.length_cons, List.length_nil, Nat.zero_add, List.cons_append, List.nil_append, Nat.reduceAdd]
    simp only [first_cat, first_group, first_eps, anyRune]
    rw [first_star_caps]
    simp only [first_lit_bytes (bs := b!"--%") [45, 45, 37] (by decide) rfl, List.length_cons, List.length_nil, Nat.reduceAdd, first_cat,
      first_eps, List.append_nil, List.cons_append, List.nil_append]
    have e2 : ∀ s1 s2 : Str, first (eolRe 3) s2 (fun s3 c3 => keep (37 :: 45 :: 45 :: t) s3
        ((1, [UInt8.ofNat 37]) :: (2, t.take (t.length - s1.length)) :: c3)) =
        some (⟨.comment, t.take (t.length - s1.length)⟩, t.length + 3 - (s2.drop (Template.eol s2)).length) := by
      intro s1 s2
      exact first_eol (k' := fun s3 => ((⟨.comment, t.take (t.length - s1.length)⟩ : Param), t.length + 3 - s3.length)) (fun _ _ => rfl) (fun _ => rfl)
    simp only [e2]
    rw [first_any _ _ _ (Nat.le_refl _), scan_delim (cl := b!"--%") (by decide), untilClose_eq]
    · cases e : V1.Template.untilDelim b!"--%" t with
      | none => rfl
      | some d =>
        obtain ⟨r, rfl⟩ := untilDelim_prefix e
        have e3 : (d ++ b!"--%" ++ r).drop d.length = b!"--%" ++ r := by simp
        simp only [Option.bind_some, Option.map_some, e3]
        rw [if_pos (by rw [List.isPrefixOf_iff_prefix]; exact List.prefix_append _ _)]
        have e4 : (d ++ b!"--%" ++ r).take ((d ++ b!"--%" ++ r).length - (b!"--%" ++ r).length) = d := by
          rw [show (d ++ b!"--%" ++ r).length - (b!"--%" ++ r).length = d.length by simp]
          simp
        have e5 : (d ++ b!"--%" ++ r).drop (d.length + 3) = r := by
          rw [show d.length + 3 = (d ++ b!"--%").length by simp, List.drop_left]
        rw [e4, e5]
        congr 2
        have := show Template.eol r ≤ r.length by cases r <;> simp [Template.eol]; split <;> omega
        simp
        omega
    · intro s1 h; rw [h]; rfl
    · intro s1 h; rw [h]; rfl
    · intro a t ha
      rw [prefix_wide (by decide) ha]; rfl

theorem first_elem {g o c : Nat} (ho : o < 128) (hc : c < 128) {op cl : Str} (hop : [o, o].map UInt8.ofNat = op) (hcl : [c, c].map UInt8.ofNat = cl)
    {rs : List (Nat × Nat)} {cls : UInt8 → Bool} (hrs : ∀ p ∈ rs, p.2 < 128)
    (hcls : ∀ a : UInt8, a.toNat < 128 → (rs.any fun p => decide (p.1 ≤ a.toNat ∧ a.toNat ≤ p.2)) = cls a)
    (hw : ∀ a : UInt8, 128 ≤ a.toNat → cls a = false) (hout : cls (UInt8.ofNat c) = false) (tail : Re) (s : Str) (k : Str → Caps → Option β) :
    first (elemRe g o c (.set rs) tail) s k = if op.isPrefixOf s then
      (if (s.drop 2).takeWhile cls = [] then none
        else if cl.isPrefixOf ((s.drop 2).dropWhile cls) then
          first tail (((s.drop 2).dropWhile cls).drop 2) fun s3 c3 => k s3 ((g, [UInt8.ofNat o]) :: (g + 1, (s.drop 2).takeWhile cls) :: c3)
        else none)
      else none := by
  have e : elemRe g o c (.set rs) tail = .cat (.group g (.cat (ch o) .eps)) (lit [o] (.cat (.group (g + 1) (.cat (.lazyPlus (.set rs)) .eps))
    (lit [c, c] tail))) := rfl
  rw [e, first_glit_bytes g o [o] (by simp [ho]) hop]
  split
  · simp only [first_cat, first_group, first_eps, List.length_cons, List.length_nil, Nat.zero_add, Nat.reduceAdd]
    rw [first_plus_caps]
    simp only [first_lit_bytes [c, c] (by simp [hc]) hcl, List.append_nil, List.length_cons, List.length_nil, Nat.reduceAdd, List.cons_append,
      List.nil_append]
    rw [first_plus_class hrs hcls hw]
    · rw [take_dropWhile]
    · intro a t ha
      rw [if_neg]
      intro h
      rw [← hcl] at h
      simp only [List.map_cons, List.isPrefixOf_cons_cons, Bool.and_eq_true, beq_iff_eq] at h
      rw [h.1] at hout
      rw [hout] at ha
      cases ha
  · rfl

theorem elem_eq {g o c : Nat} (ho : o < 128) (hc : c < 128) {op cl : Str} (hop : [o, o].map UInt8.ofNat = op) (hcl : [c, c].map UInt8.ofNat = cl)
    {rs : List (Nat × Nat)} {cls : UInt8 → Bool} (hrs : ∀ p ∈ rs, p.2 < 128)
    (hcls : ∀ a : UInt8, a.toNat < 128 → (rs.any fun p => decide (p.1 ≤ a.toNat ∧ a.toNat ≤ p.2)) = cls a)
    (hw : ∀ a : UInt8, 128 ≤ a.toNat → cls a = false) (hout : cls (UInt8.ofNat c) = false) {kind : Kind}
    (hp : ∀ d, paramOf [(g, [UInt8.ofNat o]), (g + 1, d)] = ⟨kind, d⟩) (s : Str) :
    first (elemRe g o c (.set rs) .eps) s (keep s) = Template.elementAt op cl kind cls s := by
  rw [first_elem ho hc hop hcl hrs hcls hw hout]
  have hl1 : op.length = 2 := by rw [← hop]; rfl
  have hl2 : cl.length = 2 := by rw [← hcl]; rfl
  unfold Template.elementAt
  simp only [first_eps, keep, hp, hl1, hl2, ← List.drop_drop, drop_takeWhile]
  by_cases h : op.isPrefixOf s = true
  · rw [if_pos h, if_pos h]
    by_cases h1 : (s.drop 2).takeWhile cls = []
    · rw [if_pos h1, if_neg (fun h => h.1 h1)]
    · rw [if_neg h1]
      by_cases h2 : cl.isPrefixOf ((s.drop 2).dropWhile cls) = true
      · rw [if_pos h2, if_pos ⟨h1, h2⟩]
        congr 2
        have a1 := List.takeWhile_append_dropWhile (p := cls) (l := s.drop 2)
        have a2 := congrArg List.length a1
        obtain ⟨x, hx⟩ := List.isPrefixOf_iff_prefix.1 h
        obtain ⟨y, hy⟩ := List.isPrefixOf_iff_prefix.1 h2
        have a3 := congrArg List.length hx
        have a4 := congrArg List.length hy
        simp only [List.length_append, List.length_drop] at a2 a3 a4 ⊢
        omega
      · rw [if_neg h2, if_neg (fun h => h2 h.2)]
  · rw [if_neg h, if_neg h]

theorem byte_all {P : UInt8 → Prop} (h : ∀ n, n < 256 → P (UInt8.ofNat n)) (c : UInt8) : P c := by
  have := h c.toNat c.toNat_lt
  rwa [UInt8.ofNat_toNat] at this

theorem langSet_class : ∀ a : UInt8, a.toNat < 128 → (([(97, 122), (65, 90), (48, 57), (45, 45), (95, 95), (46, 46)] : List (Nat × Nat)).any
    fun p => decide (p.1 ≤ a.toNat ∧ a.toNat ≤ p.2)) = Template.langClass a := byte_all (by decide +kernel)

theorem elemSet_class : ∀ a : UInt8, a.toNat < 128 → (([(97, 122), (65, 90), (48, 57), (45, 45), (95, 95), (61, 61), (62, 62), (58, 58), (124, 124),
    (46, 46)] : List (Nat × Nat)).any fun p => decide (p.1 ≤ a.toNat ∧ a.toNat ≤ p.2)) = Template.elemClass a := byte_all (by decide +kernel)

theorem boxSet_class : ∀ a : UInt8, a.toNat < 128 → (([(97, 122), (48, 57), (124, 124), (46, 46), (45, 45), (95, 95)] : List (Nat × Nat)).any
    fun p => decide (p.1 ≤ a.toNat ∧ a.toNat ≤ p.2)) = Template.boxClass a := byte_all (by decide +kernel)

theorem langClass_wide : ∀ a : UInt8, 128 ≤ a.toNat → Template.langClass a = false := byte_all (by decide +kernel)

theorem elemClass_wide : ∀ a : UInt8, 128 ≤ a.toNat → Template.elemClass a = false := byte_all (by decide +kernel)

theorem boxClass_wide : ∀ a : UInt8, 128 ≤ a.toNat → Template.boxClass a = false := byte_all (by decide +kernel)

theorem start_eq (s : Str) : first startRe s (keep s) = Template.startAt s := by
  unfold startRe boxSet
  rw [first_elem (op := b!"[[") (cl := b!"]]") (by decide) (by decide) rfl rfl (by decide) boxSet_class boxClass_wide (by decide)]
  have e2 : ∀ d s2 : Str, first ((eolRe 20).cat .eps) s2 (fun s3 c3 => keep s s3 ((18, [UInt8.ofNat 91]) :: (18 + 1, d) :: c3)) =
      some (⟨.start, d⟩, s.length - (s2.drop (Template.eol s2)).length) := by
    intro d s2
    simp only [first_cat, first_eps, List.append_nil]
    exact first_eol (k' := fun s3 => ((⟨.start, d⟩ : Param), s.length - s3.length)) (fun _ _ => rfl) (fun _ => rfl)
  simp only [e2]
  unfold Template.startAt Template.elementAt
  simp only [List.length_cons, List.length_nil, Nat.zero_add, Nat.reduceAdd, ← List.drop_drop, drop_takeWhile]
  by_cases h : (b!"[[").isPrefixOf s = true
  · rw [if_pos h, if_pos h]
    by_cases h1 : (s.drop 2).takeWhile Template.boxClass = []
    · rw [if_pos h1, if_neg (fun h => h.1 h1)]; rfl
    · rw [if_neg h1]
      by_cases h2 : (b!"]]").isPrefixOf ((s.drop 2).dropWhile Template.boxClass) = true
      · rw [if_pos h2, if_pos ⟨h1, h2⟩]
        simp only [Option.map_some, ← List.drop_drop, drop_takeWhile]
        congr 2
        have a1 := List.takeWhile_append_dropWhile (p := Template.boxClass) (l := s.drop 2)
        have a2 := congrArg List.length a1
        obtain ⟨x, hx⟩ := List.isPrefixOf_iff_prefix.1 h
        obtain ⟨y, hy⟩ := List.isPrefixOf_iff_prefix.1 h2
        have a3 := congrArg List.length hx
        have a4 := congrArg List.length hy
        have a5 : ((s.drop 2).dropWhile Template.boxClass).drop 2 = y := by rw [← hy]; rfl
        have := show Template.eol y ≤ y.length by cases y <;> simp [Template.eol]; split <;> omega
        rw [a5]
        simp only [List.length_append, List.length_drop, List.length_cons, List.length_nil] at a2 a3 a4 ⊢
        omega
      · rw [if_neg h2, if_neg (fun h => h2 h.2)]; rfl
  · rw [if_neg h, if_neg h]; rfl

theorem stop_eq (s : Str) : first stopRe s (keep s) = Template.stopAt s := by
  have e : stopRe = lit [91, 91] (.cat (.group 16 (.cat (ch 93) .eps)) (lit [93] (.cat (eolRe 17) .eps))) := rfl
  rw [e, first_lit_bytes (bs := b!"[[") [91, 91] (by decide) rfl]
  simp only [first_glit_bytes (bs := b!"]]") 16 93 [93] (by decide) rfl, first_cat, first_eps, List.append_nil, List.length_cons, List.length_nil,
    Nat.reduceAdd, Nat.zero_add]
  have e2 : ∀ s2 : Str, first (eolRe 17) s2 (fun s3 c3 => keep s s3 ((16, [UInt8.ofNat 93]) :: c3)) =
      some (⟨.stop, []⟩, s.length - (s2.drop (Template.eol s2)).length) := by
    intro s2
    exact first_eol (k' := fun s3 => ((⟨.stop, []⟩ : Param), s.length - s3.length)) (fun _ _ => rfl) (fun _ => rfl)
  simp only [e2]
  unfold Template.stopAt
  by_cases h : b!"[[]]" <+: s
  · rw [if_pos (show (b!"[[]]").isPrefixOf s = true by rwa [List.isPrefixOf_iff_prefix])]
    obtain ⟨t, rfl⟩ := h
    rw [if_pos (by rw [List.isPrefixOf_iff_prefix]; exact ⟨b!"]]" ++ t, by simp⟩),
      if_pos (by rw [List.isPrefixOf_iff_prefix]; exact ⟨t, by simp⟩)]
    have := show Template.eol t ≤ t.length by cases t <;> simp [Template.eol]; split <;> omega
    simp
    omega
  · rw [if_neg (show ¬ (b!"[[]]").isPrefixOf s = true by rwa [List.isPrefixOf_iff_prefix])]
    split
    · rename_i h1
      rw [if_neg]
      intro h2
      apply h
      rw [List.isPrefixOf_iff_prefix] at h1 h2
      obtain ⟨t, rfl⟩ := h1
      obtain ⟨r, hr⟩ := h2
      exact ⟨r, by simpa using hr⟩
    · rfl

/-! ## The whole expression -/

theorem paramOf_elem :
    (∀ d, paramOf [(4, [UInt8.ofNat 35]), (4 + 1, d)] = ⟨.language, d⟩) ∧ (∀ d, paramOf [(6, [UInt8.ofNat 38]), (6 + 1, d)] = ⟨.reference, d⟩) ∧
    (∀ d, paramOf [(8, [UInt8.ofNat 64]), (8 + 1, d)] = ⟨.range, d⟩) ∧ (∀ d, paramOf [(10, [UInt8.ofNat 63]), (10 + 1, d)] = ⟨.condition, d⟩) ∧
    (∀ d, paramOf [(12, [UInt8.ofNat 33]), (12 + 1, d)] = ⟨.dump, d⟩) ∧ ∀ d, paramOf [(14, [UInt8.ofNat 123]), (14 + 1, d)] = ⟨.variable, d⟩ :=
  ⟨fun _ => rfl, fun _ => rfl, fun _ => rfl, fun _ => rfl, fun _ => rfl, fun _ => rfl⟩

/-- At each position the expression finds what `matchAt` finds. -/
theorem match_eq {r : Re} (hr : parse code = some r) (s : Str) :
    (matchHere r s).map (fun p => (paramOf p.2, s.length - p.1.length)) = Template.matchAt s := by
  rw [parse_code] at hr
  cases hr
  obtain ⟨p1, p2, p3, p4, p5, p6⟩ := paramOf_elem
  rw [matchHere_first, first_map]
  change first _ s (keep s) = _
  simp only [first_alt, comment_eq, stop_eq, start_eq, langSet, elemSet]
  rw [elem_eq (op := b!"##") (cl := b!"##") (by decide) (by decide) rfl rfl (by decide) langSet_class langClass_wide (by decide) p1,
    elem_eq (op := b!"&&") (cl := b!"&&") (by decide) (by decide) rfl rfl (by decide) elemSet_class elemClass_wide (by decide) p2,
    elem_eq (op := b!"@@") (cl := b!"@@") (by decide) (by decide) rfl rfl (by decide) elemSet_class elemClass_wide (by decide) p3,
    elem_eq (op := b!"??") (cl := b!"??") (by decide) (by decide) rfl rfl (by decide) elemSet_class elemClass_wide (by decide) p4,
    elem_eq (op := b!"!!") (cl := b!"!!") (by decide) (by decide) rfl rfl (by decide) elemSet_class elemClass_wide (by decide) p5,
    elem_eq (op := b!"{{") (cl := b!"}}") (by decide) (by decide) rfl rfl (by decide) elemSet_class elemClass_wide (by decide) p6]
  rfl

/-! ## The expression of version 1 -/

theorem elem_eqV1 {g o c : Nat} (ho : o < 128) (hc : c < 128) {op cl : Str} (hop : [o, o].map UInt8.ofNat = op) (hcl : [c, c].map UInt8.ofNat = cl)
    {kind : Kind} (hp : ∀ d, paramOf [(g, [UInt8.ofNat o]), (g + 1, d)] = ⟨kind, d⟩) (s : Str) :
    first (elemRe g o c anyRune .eps) s (keep s) = V1.Template.elementAt op cl kind s := by
  have e : elemRe g o c anyRune .eps = .cat (.group g (.cat (ch o) .eps)) (lit [o] (.cat (.group (g + 1) (.cat (.lazyPlus anyRune) .eps))
    (lit [c, c] .eps))) := rfl
  have hl1 : op.length = 2 := by rw [← hop]; rfl
  have hl2 : cl.length = 2 := by rw [← hcl]; rfl
  rw [e, first_glit_bytes g o [o] (by simp [ho]) hop]
  unfold V1.Template.elementAt
  by_cases h : op.isPrefixOf s = true
  · rw [if_pos h, if_pos h]
    simp only [first_cat, first_group, first_eps, List.length_cons, List.length_nil, Nat.zero_add, Nat.reduceAdd, anyRune]
    rw [first_plus_caps]
    simp only [first_lit_bytes [c, c] (by simp [hc]) hcl, List.append_nil, List.length_cons, List.length_nil, Nat.reduceAdd, List.cons_append,
      List.nil_append, first_eps, keep, hp, hl1, hl2]
    obtain ⟨x, hx⟩ := List.isPrefixOf_iff_prefix.1 h
    have a1 := congrArg List.length hx
    have a2 : s.drop 2 = x := by rw [← hx, ← hl1, List.drop_left]
    rw [a2, first_plus_any]
    · cases x with
      | nil => rfl
      | cons a t =>
        simp only
        rw [scan_delim (cl := cl)]
        · cases e : V1.Template.untilDelim cl t with
          | none => rfl
          | some d =>
            obtain ⟨r, rfl⟩ := untilDelim_prefix e
            have e3 : (d ++ cl ++ r).drop d.length = cl ++ r := by simp
            simp only [Option.bind_some, Option.map_some, e3]
            rw [if_pos (by rw [List.isPrefixOf_iff_prefix]; exact List.prefix_append _ _)]
            have e4 : (a :: (d ++ cl ++ r)).take ((a :: (d ++ cl ++ r)).length - (cl ++ r).length) = a :: d := by
              rw [show (a :: (d ++ cl ++ r)).length - (cl ++ r).length = d.length + 1 by simp; omega]
              simp
            have e5 : (cl ++ r).drop 2 = r := by rw [← hl2, List.drop_left]
            rw [e4, e5]
            congr 2
            simp only [List.length_append, List.length_cons] at a1 ⊢
            omega
        · rw [← hcl]; simp
        · intro s1 h; rw [h]; rfl
        · intro s1 h; rw [h]; rfl
    · intro a t ha
      rw [if_neg]
      rw [← hcl, List.map_cons, prefix_wide (by rw [UInt8.toNat_ofNat']; omega) ha]
      decide
  · rw [if_neg h, if_neg h]

theorem match_eqV1 {r : Re} (hr : parse codeV1 = some r) (s : Str) :
    (matchHere r s).map (fun p => (paramOf p.2, s.length - p.1.length)) = V1.Template.matchAt s := by
  rw [parse_codeV1] at hr
  cases hr
  obtain ⟨p1, p2, p3, p4, p5, p6⟩ := paramOf_elem
  rw [matchHere_first, first_map]
  change first _ s (keep s) = _
  simp only [first_alt, comment_eq, stop_eq, start_eq]
  rw [elem_eqV1 (op := b!"##") (cl := b!"##") (by decide) (by decide) rfl rfl p1,
    elem_eqV1 (op := b!"&&") (cl := b!"&&") (by decide) (by decide) rfl rfl p2,
    elem_eqV1 (op := b!"@@") (cl := b!"@@") (by decide) (by decide) rfl rfl p3,
    elem_eqV1 (op := b!"??") (cl := b!"??") (by decide) (by decide) rfl rfl p4,
    elem_eqV1 (op := b!"!!") (cl := b!"!!") (by decide) (by decide) rfl rfl p5,
    elem_eqV1 (op := b!"{{") (cl := b!"}}") (by decide) (by decide) rfl rfl p6]
  rfl

/-! ## All matches -/

theorem loop_suffix {f : Str → List (Str × Caps)} (hf : ∀ s, ∀ p ∈ f s, p.1 <:+ s) : ∀ (n : Nat) (s : Str), ∀ p ∈ loop f n s, p.1 <:+ s := by
  intro n
  induction n with
  | zero => intro s p hp; simp only [loop, List.mem_singleton] at hp; rw [hp]; exact List.suffix_refl _
  | succ n ih =>
    intro s p hp
    simp only [loop, List.mem_cons, List.mem_flatMap] at hp
    rcases hp with rfl | ⟨q, hq, h⟩
    · exact List.suffix_refl _
    · split at h
      · obtain ⟨q', h1, rfl⟩ := List.mem_map.1 h
        exact (ih _ q' h1).trans (hf s q hq)
      · cases h

/-- What a match leaves is the end of the text. -/
theorem run_suffix (r : Re) : ∀ (s : Str), ∀ p ∈ run r s, p.1 <:+ s := by
  induction r with
  | eps => intro s p hp; simp only [run, List.mem_singleton] at hp; rw [hp]; exact List.suffix_refl _
  | set rs =>
    intro s p hp
    simp only [run] at hp
    split at hp
    · cases hp
    · split at hp
      · rw [List.mem_singleton] at hp; rw [hp]; exact List.drop_suffix _ _
      · cases hp
  | cat a b iha ihb =>
    intro s p hp
    simp only [run, List.mem_flatMap] at hp
    obtain ⟨q, h1, h2⟩ := hp
    obtain ⟨q', h3, rfl⟩ := List.mem_map.1 h2
    exact (ihb _ q' h3).trans (iha _ q h1)
  | alt a b iha ihb =>
    intro s p hp
    simp only [run, List.mem_append] at hp
    rcases hp with h | h
    · exact iha s p h
    · exact ihb s p h
  | opt a iha =>
    intro s p hp
    simp only [run, List.mem_append, List.mem_singleton] at hp
    rcases hp with h | rfl
    · exact iha s p h
    · exact List.suffix_refl _
  | lazyStar a iha => intro s p hp; exact loop_suffix iha _ s p hp
  | lazyPlus a iha =>
    intro s p hp
    simp only [run, List.mem_flatMap] at hp
    obtain ⟨q, h1, h2⟩ := hp
    obtain ⟨q', h3, rfl⟩ := List.mem_map.1 h2
    exact (loop_suffix iha _ _ q' h3).trans (iha _ q h1)
  | group n a iha =>
    intro s p hp
    simp only [run] at hp
    obtain ⟨q, h3, rfl⟩ := List.mem_map.1 hp
    exact iha s q h3

theorem suffix_drop {s1 s : Str} (h : s1 <:+ s) : s.drop (s.length - s1.length) = s1 := by
  obtain ⟨t, rfl⟩ := h
  rw [show (t ++ s1).length - s1.length = t.length by simp, List.drop_left]

/-- A search by bytes with `m` finds what the search by runes with the expression finds. -/
theorem findAll_eq {r : Re} {m : Str → Option (Param × Nat)}
    (hm : ∀ s, (matchHere r s).map (fun p => (paramOf p.2, s.length - p.1.length)) = m s)
    (hpos : ∀ s p n, m s = some (p, n) → 0 < n) (hwide : ∀ a t, 128 ≤ a.toNat → m (a :: t) = none)
    {F : Nat → Nat → Str → List Match} (F0 : ∀ k pos, F k pos [] = []) (F1 : ∀ k pos c s, F (k + 1) pos (c :: s) = F k (pos + 1) s)
    (F2 : ∀ pos c s, m (c :: s) = none → F 0 pos (c :: s) = F 0 (pos + 1) s)
    (F3 : ∀ pos c s p n, m (c :: s) = some (p, n) → F 0 pos (c :: s) = ⟨pos, pos + n, p⟩ :: F (n - 1) (pos + 1) s) :
    ∀ (fuel pos : Nat) (s : Str), s.length ≤ fuel → ((findAll r fuel pos s).map fun (a, b, c) => ⟨a, b, paramOf c⟩) = F 0 pos s := by
  have skip : ∀ (k pos : Nat) (s : Str), F k pos s = F 0 (pos + k) (s.drop k) := by
    intro k
    induction k with
    | zero => intro pos s; rfl
    | succ k ih =>
      intro pos s
      cases s with
      | nil => rw [List.drop_nil, F0, F0]
      | cons c s => rw [F1, ih, List.drop_succ_cons, show pos + 1 + k = pos + (k + 1) by omega]
  have wide : ∀ (k pos : Nat) (s : Str), (∀ i, i < k → ∃ b, s[i]? = some b ∧ 128 ≤ b.toNat) → F 0 pos s = F 0 (pos + k) (s.drop k) := by
    intro k
    induction k with
    | zero => intro pos s _; rfl
    | succ k ih =>
      intro pos s h
      cases s with
      | nil => rw [List.drop_nil, F0, F0]
      | cons c s =>
        obtain ⟨b, e, hb⟩ := h 0 (by omega)
        simp at e
        subst e
        rw [F2 _ _ _ (hwide _ _ hb), ih, List.drop_succ_cons, show pos + 1 + k = pos + (k + 1) by omega]
        exact fun i hi => by simpa using h (i + 1) (by omega)
  intro fuel
  induction fuel with
  | zero =>
    intro pos s h
    obtain rfl : s = [] := List.length_eq_zero_iff.1 (by omega)
    rw [F0]; rfl
  | succ fuel ih =>
    intro pos s h
    cases s with
    | nil => rw [F0]; rfl
    | cons c s =>
      simp only [List.length_cons] at h
      rw [findAll]
      have hs := hm (c :: s)
      cases e : matchHere r (c :: s) with
      | none =>
        rw [e] at hs
        rw [F2 _ _ _ hs.symm]
        by_cases hc : c.toNat < 128
        · rw [firstRune_ascii hc]
          simp only [List.drop_succ_cons, List.drop_zero]
          exact ih _ _ (by omega)
        · obtain ⟨x, w, e2, _, _, h3⟩ := firstRune_wide (a := c) (t := s) (by omega)
          rw [e2]
          simp only [List.drop_succ_cons]
          rw [ih _ _ (by rw [List.length_drop]; omega), wide w (pos + 1) s h3, show pos + 1 + w = pos + (w + 1) by omega]
      | some p =>
        rw [e] at hs
        have hpn := hpos _ _ _ hs.symm
        have hsuf := run_suffix r (c :: s) p (List.mem_of_mem_head? e)
        have hc : ¬ 128 ≤ c.toNat := by
          intro hc
          rw [hwide _ _ hc] at hs
          cases hs
        rw [firstRune_ascii (by omega), F3 _ _ _ _ _ hs.symm, skip]
        simp only
        rw [if_neg (by omega), List.map_cons, ih _ _ (by simp only [List.length_cons] at hpn; omega)]
        congr 1
        have e3 := suffix_drop hsuf
        generalize (c :: s).length - p.1.length = n at *
        obtain ⟨n, rfl⟩ : ∃ m, n = m + 1 := ⟨n - 1, by omega⟩
        rw [List.drop_succ_cons] at e3
        rw [Nat.add_sub_cancel, e3, show pos + 1 + n = pos + (n + 1) by omega]

theorem elementAt_pos {op cl : Str} {k : Kind} {cls : UInt8 → Bool} {s : Str} {r : Param × Nat} (hop : op ≠ [])
    (h : Template.elementAt op cl k cls s = some r) : 0 < r.2 := by
  have := List.length_pos_iff.2 hop
  unfold Template.elementAt at h
  split at h
  · simp only at h
    split at h
    · cases h; simp only; omega
    · cases h
  · cases h

theorem elementAt_posV1 {op cl : Str} {k : Kind} {s : Str} {r : Param × Nat} (hop : op ≠ [])
    (h : V1.Template.elementAt op cl k s = some r) : 0 < r.2 := by
  have := List.length_pos_iff.2 hop
  unfold V1.Template.elementAt at h
  split at h
  · split at h
    · cases h
    · obtain ⟨d, _, rfl⟩ := Option.map_eq_some_iff.1 h
      simp only; omega
  · cases h

theorem commentAt_pos {s : Str} {r : Param × Nat} (h : Template.commentAt s = some r) : 0 < r.2 := by
  unfold Template.commentAt at h
  split at h
  · obtain ⟨d, _, rfl⟩ := Option.map_eq_some_iff.1 h
    simp only; omega
  · cases h

theorem stopAt_pos {s : Str} {r : Param × Nat} (h : Template.stopAt s = some r) : 0 < r.2 := by
  unfold Template.stopAt at h
  split at h
  · cases h; simp only; omega
  · cases h

theorem startAt_pos {s : Str} {r : Param × Nat} (h : Template.startAt s = some r) : 0 < r.2 := by
  unfold Template.startAt at h
  obtain ⟨d, hd, rfl⟩ := Option.map_eq_some_iff.1 h
  have := elementAt_pos (by decide) hd
  simp only; omega

theorem matchAt_pos' (s : Str) (p : Param) (n : Nat) (h : Template.matchAt s = some (p, n)) : 0 < n := by
  unfold Template.matchAt at h
  simp only [Option.or_eq_some_iff] at h
  have c := fun {op cl k cls} (hop : op ≠ []) h => elementAt_pos (op := op) (cl := cl) (k := k) (cls := cls) (s := s) (r := (p, n)) hop h
  rcases h with h | ⟨_, h | ⟨_, h | ⟨_, h | ⟨_, h | ⟨_, h | ⟨_, h | ⟨_, h | ⟨_, h⟩⟩⟩⟩⟩⟩⟩⟩
  · exact commentAt_pos h
  · exact c (by decide) h
  · exact c (by decide) h
  · exact c (by decide) h
  · exact c (by decide) h
  · exact c (by decide) h
  · exact c (by decide) h
  · exact stopAt_pos h
  · exact startAt_pos h

theorem matchAt_posV1 (s : Str) (p : Param) (n : Nat) (h : V1.Template.matchAt s = some (p, n)) : 0 < n := by
  unfold V1.Template.matchAt at h
  simp only [Option.or_eq_some_iff] at h
  have c := fun {op cl k} (hop : op ≠ []) h => elementAt_posV1 (op := op) (cl := cl) (k := k) (s := s) (r := (p, n)) hop h
  rcases h with h | ⟨_, h | ⟨_, h | ⟨_, h | ⟨_, h | ⟨_, h | ⟨_, h | ⟨_, h | ⟨_, h⟩⟩⟩⟩⟩⟩⟩⟩
  · exact commentAt_pos h
  · exact c (by decide) h
  · exact c (by decide) h
  · exact c (by decide) h
  · exact c (by decide) h
  · exact c (by decide) h
  · exact c (by decide) h
  · exact stopAt_pos h
  · exact startAt_pos h

theorem matchAt_wide (a : UInt8) (t : Str) (h : 128 ≤ a.toNat) : Template.matchAt (a :: t) = none := by
  have w := fun {x : UInt8} {l : Str} (hx : x.toNat < 128) => prefix_wide (l := l) hx (t := t) h
  simp [Template.matchAt, Template.commentAt, Template.elementAt, Template.stopAt, Template.startAt, w]

theorem matchAt_wideV1 (a : UInt8) (t : Str) (h : 128 ≤ a.toNat) : V1.Template.matchAt (a :: t) = none := by
  have w := fun {x : UInt8} {l : Str} (hx : x.toNat < 128) => prefix_wide (l := l) hx (t := t) h
  simp [V1.Template.matchAt, Template.commentAt, V1.Template.elementAt, Template.elementAt, Template.stopAt, Template.startAt, w]

theorem firstPass_eq {r : Re} (hr : parse code = some r) (data : Str) : firstPassWith r data = Template.lex data := by
  refine congrArg (firstPass data 0) ?_
  refine findAll_eq (match_eq hr) matchAt_pos' matchAt_wide (F := Template.findAll) ?_ ?_ ?_ ?_ data.length 0 data (Nat.le_refl _)
  · intro k pos; cases k <;> rfl
  · intro k pos c s; rfl
  · intro pos c s h; rw [Template.findAll, h]
  · intro pos c s p n h; rw [Template.findAll, h]

theorem firstPass_eqV1 {r : Re} (hr : parse codeV1 = some r) (data : Str) : firstPassWith r data = V1.Template.lex data := by
  refine congrArg (firstPass data 0) ?_
  refine findAll_eq (match_eqV1 hr) matchAt_posV1 matchAt_wideV1 (F := V1.Template.findAll) ?_ ?_ ?_ ?_ data.length 0 data (Nat.le_refl _)
  · intro k pos; cases k <;> rfl
  · intro k pos c s; rfl
  · intro pos c s h; rw [V1.Template.findAll, h]
  · intro pos c s p n h; rw [V1.Template.findAll, h]

end Xcore.Regexp
