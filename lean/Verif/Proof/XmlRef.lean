import Verif.Proof.Xml
import Verif.Spec.XmlDoc

/-! # UTF-8 and references: model and grammar -/

namespace Xcore.Xml

open Language

theorem toNat_ofNat_valid {n : Nat} (h : n.isValidChar) : (Char.ofNat n).toNat = n := by
  simp only [Char.ofNat, h, dif_pos, Char.toNat, Char.ofNatAux, UInt32.toNat]
  simp

theorem encode_ofNat {n : Nat} (h : n.isValidChar) : String.utf8EncodeChar (Char.ofNat n) =
    if n ≤ 0x7f then [UInt8.ofNat n]
    else if n ≤ 0x7ff then [UInt8.ofNat (n / 64 % 32 + 192), UInt8.ofNat (n % 64 + 128)]
    else if n ≤ 0xffff then [UInt8.ofNat (n / 4096 % 16 + 224), UInt8.ofNat (n / 64 % 64 + 128), UInt8.ofNat (n % 64 + 128)]
    else [UInt8.ofNat (n / 262144 % 8 + 240), UInt8.ofNat (n / 4096 % 64 + 128), UInt8.ofNat (n / 64 % 64 + 128), UInt8.ofNat (n % 64 + 128)] := by
  have := toNat_ofNat_valid h
  simp only [Char.toNat] at this
  unfold String.utf8EncodeChar
  simp only [this]
  
theorem byte_eq {n : Nat} {a : UInt8} (h : n = a.toNat) : UInt8.ofNat n = a := by subst h; simp

theorem cont_bounds {a b x y z w : UInt8} {lo hi : UInt8} (h : cont (if a = x then y else lo) (if a = z then w else hi) b = true) (hy : lo.toNat ≤ y.toNat)
    (hw : w.toNat ≤ hi.toNat) :
    (a.toNat = x.toNat → y.toNat ≤ b.toNat) ∧ lo.toNat ≤ b.toNat ∧ (a.toNat = z.toNat → b.toNat ≤ w.toNat) ∧ b.toNat ≤ hi.toNat := by
  simp only [cont, decide_eq_true_eq] at h
  rw [UInt8.toNat_inj, UInt8.toNat_inj]
  refine ⟨fun e => ?_, ?_, fun e => ?_, ?_⟩
  · have := h.1; rwa [if_pos e] at this
  · have := h.1; split at this <;> omega
  · have := h.2; rwa [if_pos e] at this
  · have := h.2; split at this <;> omega

theorem decodeRune_valid {s : Str} {r k : Nat} (h : decodeRune s = some (r, k)) :
    ∃ c : Char, c.toNat = r ∧ (String.utf8EncodeChar c).length = k ∧ s = String.utf8EncodeChar c ++ s.drop k := by
  cases s with
  | nil => cases h
  | cons a s =>
    have ha : a.toNat < 256 := a.toNat_lt
    simp only [decodeRune] at h
    split at h
    · rename_i h1
      simp only [Option.some.injEq, Prod.mk.injEq] at h
      obtain ⟨rfl, rfl⟩ := h
      have hv : a.toNat.isValidChar := Or.inl (by omega)
      refine ⟨Char.ofNat a.toNat, toNat_ofNat_valid hv, ?_⟩
      rw [encode_ofNat hv, if_pos (by omega)]
      simp
    · rename_i h1
      cases s with
      | nil => cases h
      | cons b s =>
        have hb : b.toNat < 256 := b.toNat_lt
        simp only at h
        split at h
        · rename_i h2
          simp only [cont, decide_eq_true_eq] at h2
          simp only [Option.some.injEq, Prod.mk.injEq] at h
          obtain ⟨rfl, rfl⟩ := h
          have hx : (0x80 : UInt8).toNat = 0x80 := rfl
          have hy : (0xBF : UInt8).toNat = 0xBF := rfl
          rw [hx, hy] at h2
          have hv : ((a.toNat - 0xC0) * 64 + (b.toNat - 0x80)).isValidChar := Or.inl (by omega)
          refine ⟨Char.ofNat _, toNat_ofNat_valid hv, ?_⟩
          rw [encode_ofNat hv, if_neg (by omega), if_pos (by omega)]
          rw [byte_eq (a := a) (by omega), byte_eq (a := b) (by omega)]
          simp
        · cases s with
          | nil => cases h
          | cons c s =>
            have hc : c.toNat < 256 := c.toNat_lt
            simp only at h
            by_cases h2 : 0xE0 ≤ a.toNat ∧ a.toNat ≤ 0xEF ∧ cont (if a = 0xE0 then 0xA0 else 0x80) (if a = 0xED then 0x9F else 0xBF) b ∧ cont 0x80 0xBF c
            · rw [if_pos h2] at h
              obtain ⟨p1, p2, p3, p4⟩ := h2
              have p3 := cont_bounds p3 (by decide) (by decide)
              simp only [cont, decide_eq_true_eq] at p4
              simp only [UInt8.reduceToNat] at p3 p4
              simp only [Option.some.injEq, Prod.mk.injEq] at h
              obtain ⟨rfl, rfl⟩ := h
              have hv : ((a.toNat - 0xE0) * 4096 + (b.toNat - 0x80) * 64 + (c.toNat - 0x80)).isValidChar := by
                unfold Nat.isValidChar
                omega
              refine ⟨Char.ofNat _, toNat_ofNat_valid hv, ?_⟩
              rw [encode_ofNat hv, if_neg (by omega), if_neg (by omega), if_pos (by omega)]
              rw [byte_eq (a := a) (by omega), byte_eq (a := b) (by omega), byte_eq (a := c) (by omega)]
              simp
            · rw [if_neg h2] at h
              cases s with
              | nil => cases h
              | cons d s =>
                have hd : d.toNat < 256 := d.toNat_lt
                simp only at h
                by_cases h2 : 0xF0 ≤ a.toNat ∧ a.toNat ≤ 0xF4 ∧ cont (if a = 0xF0 then 0x90 else 0x80) (if a = 0xF4 then 0x8F else 0xBF) b ∧
                    cont 0x80 0xBF c ∧ cont 0x80 0xBF d
                · rw [if_pos h2] at h
                  obtain ⟨p1, p2, p3, p4⟩ := h2
                  have p3 := cont_bounds p3 (by decide) (by decide)
                  simp only [cont, decide_eq_true_eq] at p4
                  simp only [UInt8.reduceToNat] at p3 p4
                  simp only [Option.some.injEq, Prod.mk.injEq] at h
                  obtain ⟨rfl, rfl⟩ := h
                  have hv : ((a.toNat - 0xF0) * 262144 + (b.toNat - 0x80) * 4096 + (c.toNat - 0x80) * 64 + (d.toNat - 0x80)).isValidChar := by
                    unfold Nat.isValidChar
                    omega
                  refine ⟨Char.ofNat _, toNat_ofNat_valid hv, ?_⟩
                  rw [encode_ofNat hv, if_neg (by omega), if_neg (by omega), if_neg (by omega)]
                  rw [byte_eq (a := a) (by omega), byte_eq (a := b) (by omega), byte_eq (a := c) (by omega), byte_eq (a := d) (by omega)]
                  simp
                · rw [if_neg h2] at h; cases h

theorem xmlChar_of_inRange {c : Char} (h : inRange c.toNat = true) : XmlChar c := by
  unfold inRange at h
  rw [decide_eq_true_eq] at h
  have key : ∀ d : Char, c.toNat = d.toNat → c = d := fun d e => Char.ext (UInt32.toNat_inj.1 e)
  rcases h with h | h | h | h
  · exact Or.inl (key _ h)
  · exact Or.inr (Or.inl (key _ h))
  · exact Or.inr (Or.inr (Or.inl (key _ h)))
  · exact Or.inr (Or.inr (Or.inr (by omega)))

theorem xmlText_of_validChars {n : Nat} {s : Str} (h : validChars n s = true) : XmlText s := by
  induction n generalizing s with
  | zero => cases s with
    | nil => exact ⟨[], by simp, rfl⟩
    | cons a s => simp [validChars] at h
  | succ n ih =>
    cases s with
    | nil => exact ⟨[], by simp, rfl⟩
    | cons a s =>
      simp only [validChars] at h
      cases hd : decodeRune (a :: s) with
      | none => rw [hd] at h; cases h
      | some p =>
        obtain ⟨r, k⟩ := p
        rw [hd] at h
        simp only [Bool.and_eq_true] at h
        obtain ⟨c, rfl, _, e⟩ := decodeRune_valid hd
        obtain ⟨cs, h1, h2⟩ := ih h.2
        refine ⟨c :: cs, ?_, ?_⟩
        · simp only [List.mem_cons, forall_eq_or_imp]
          exact ⟨xmlChar_of_inRange h.1, h1⟩
        · rw [List.flatMap_cons, ← h2, ← e]

theorem okText_iff {s : Str} : okText s = true ↔ XmlText s := ⟨xmlText_of_validChars, okText_of_xmlText⟩

/-! ## References -/

theorem byte_cases {P : UInt8 → Prop} (h : ∀ n : Fin 256, P (UInt8.ofNat n.val)) (b : UInt8) : P b := by
  have := h ⟨b.toNat, b.toNat_lt⟩
  simpa using this

theorem digit_eq (b : UInt8) : digit b = if digitIn 16 b then some (digitVal b) else none := by
  revert b
  exact byte_cases (by decide +kernel)

theorem digit_lt (b : UInt8) : digitIn 16 b = true → digitVal b < 16 := by
  revert b
  exact byte_cases (by decide +kernel)

theorem digit10 (b : UInt8) : digitIn 10 b = true ↔ digitIn 16 b = true ∧ digitVal b < 10 := by
  revert b
  exact byte_cases (by decide +kernel)

theorem digit_some {b : UInt8} {k : Nat} {base : Nat} (hb : base = 10 ∨ base = 16) :
    digit b = some k ∧ k < base ↔ digitIn base b = true ∧ digitVal b = k := by
  rw [digit_eq]
  rcases hb with rfl | rfl
  · rw [digit10]
    by_cases h : digitIn 16 b = true
    · rw [if_pos h]
      simp only [Option.some.injEq]
      constructor
      · rintro ⟨rfl, h2⟩; exact ⟨⟨h, h2⟩, rfl⟩
      · rintro ⟨⟨_, h2⟩, rfl⟩; exact ⟨rfl, h2⟩
    · simp [h]
  · by_cases h : digitIn 16 b = true
    · rw [if_pos h]
      simp only [Option.some.injEq]
      constructor
      · rintro ⟨rfl, h2⟩; exact ⟨h, rfl⟩
      · rintro ⟨_, rfl⟩; exact ⟨rfl, digit_lt b h⟩
    · simp [h]

theorem numeral_iff {base : Nat} (hb : base = 10 ∨ base = 16) {ds : Str} {n : Nat} :
    Numeral base ds n ↔ ds ≠ [] ∧ ds.all (digitIn base) = true ∧ ds.foldl (fun n b => n * base + digitVal b) 0 = n := by
  constructor
  · intro h
    induction h with
    | one h1 h2 =>
      obtain ⟨h3, rfl⟩ := (digit_some hb).1 ⟨h1, h2⟩
      simp [h3]
    | more _ h1 h2 ih =>
      obtain ⟨h3, rfl⟩ := (digit_some hb).1 ⟨h1, h2⟩
      obtain ⟨i1, i2, i3⟩ := ih
      simp only [List.all_eq_true] at i2
      refine ⟨by simp, by simp only [List.all_append, List.all_cons, List.all_nil, h3, Bool.and_true]; simpa using i2, ?_⟩
      simp [i3]
  · rintro ⟨h1, h2, rfl⟩
    obtain ⟨rs, rfl⟩ : ∃ rs : Str, ds = rs.reverse := ⟨ds.reverse, by simp⟩
    induction rs with
    | nil => exact absurd rfl h1
    | cons b rs ih =>
      rw [List.reverse_cons] at h2 ⊢
      generalize rs.reverse = ds at *
      simp only [List.all_append, List.all_cons, List.all_nil, Bool.and_true, Bool.and_eq_true] at h2
      obtain ⟨h3, h4⟩ := (digit_some (k := digitVal b) hb).2 ⟨h2.2, rfl⟩
      by_cases hd : ds = []
      · subst hd
        simpa using Numeral.one h3 h4
      · simpa using Numeral.more (ih hd h2.1) h3 h4

theorem stands_iff {n : Nat} {t : Str} : Stands n t ↔ n ≤ 0x10FFFF ∧ encodeRune n = t := by
  constructor
  · intro h
    cases h with
    | char c =>
      have hv : c.toNat < 0xD800 ∨ 0xDFFF < c.toNat ∧ c.toNat < 0x110000 := c.valid
      refine ⟨by omega, ?_⟩
      rw [encodeRune, if_neg (by omega), Char.ofNat_toNat]
    | surrogate h1 h2 =>
      refine ⟨by omega, ?_⟩
      rw [encodeRune, if_pos ⟨h1, h2⟩]; rfl
  · rintro ⟨h1, rfl⟩
    unfold encodeRune
    split
    · rename_i h
      exact .surrogate h.1 h.2
    · rename_i h
      have hv : n.isValidChar := by unfold Nat.isValidChar; omega
      have := Stands.char (Char.ofNat n)
      rwa [toNat_ofNat_valid hv] at this

theorem charRef_iff {base : Nat} (hb : base = 10 ∨ base = 16) {ds t : Str} : charRef base ds = some t ↔ ∃ n, Numeral base ds n ∧ Stands n t := by
  unfold charRef
  constructor
  · intro h
    split at h
    · cases h
    · rename_i h1
      rw [not_or] at h1
      simp only at h
      split at h
      · rename_i h2
        exact ⟨_, (numeral_iff hb).2 ⟨h1.1, by simpa using h1.2, rfl⟩, stands_iff.2 ⟨h2, by simpa using h⟩⟩
      · cases h
  · rintro ⟨n, h1, h2⟩
    obtain ⟨h3, h4, rfl⟩ := (numeral_iff hb).1 h1
    obtain ⟨h5, rfl⟩ := stands_iff.1 h2
    rw [if_neg (by simp [h3]; simpa using h4)]
    simp [h5]

theorem reference_iff {r t : Str} : reference r = some t ↔ Reference r t := by
  constructor
  · intro h
    unfold reference at h
    split at h
    · cases h; exact .lt
    · cases h; exact .gt
    · cases h; exact .amp
    · cases h; exact .apos
    · cases h; exact .quot
    · obtain ⟨n, h1, h2⟩ := (charRef_iff (Or.inr rfl)).1 h
      exact .hexadecimal h1 h2
    · obtain ⟨n, h1, h2⟩ := (charRef_iff (Or.inl rfl)).1 h
      exact .decimal h1 h2
    · cases h
  · intro h
    cases h with
    | lt => rfl
    | gt => rfl
    | amp => rfl
    | apos => rfl
    | quot => rfl
    | @decimal ds n _ h1 h2 =>
      have hc := (charRef_iff (Or.inl rfl)).2 ⟨n, h1, h2⟩
      obtain ⟨h3, h4, _⟩ := (numeral_iff (Or.inl rfl)).1 h1
      cases ds with
      | nil => exact absurd rfl h3
      | cons d ds =>
        have hd : d ≠ 120 := by
          rintro rfl
          simp [digitIn, isDigit] at h4
        show reference (35 :: d :: ds) = _
        unfold reference
        split <;> simp_all
    | hexadecimal h1 h2 =>
      have hc := (charRef_iff (Or.inr rfl)).2 ⟨_, h1, h2⟩
      exact hc

/-- A reference contains no semicolon, bracket, angle bracket, quote. -/
theorem Reference.bytes {r t : Str} (h : Reference r t) : ∀ b ∈ r, b ≠ 59 ∧ b ≠ 93 ∧ b ≠ 62 ∧ b ≠ 34 ∧ b ≠ 39 ∧ b ≠ 60 := by
  have key : ∀ base, base = 10 ∨ base = 16 → ∀ ds n, Numeral base ds n → ∀ b ∈ ds, b ≠ 59 ∧ b ≠ 93 ∧ b ≠ 62 ∧ b ≠ 34 ∧ b ≠ 39 ∧ b ≠ 60 := by
    intro base hb ds n h b hm
    obtain ⟨_, h2, _⟩ := (numeral_iff hb).1 h
    have := List.all_eq_true.1 h2 b hm
    have h16 : digitIn 16 b = true := by
      rcases hb with rfl | rfl
      · exact ((digit10 b).1 this).1
      · exact this
    refine ⟨?_, ?_, ?_, ?_, ?_, ?_⟩ <;> rintro rfl <;> revert h16 <;> decide
  cases h with
  | lt => decide
  | gt => decide
  | amp => decide
  | apos => decide
  | quot => decide
  | decimal h1 _ =>
    intro b hb
    rcases List.mem_append.1 hb with h | h
    · clear hb; revert b; decide
    · exact key 10 (Or.inl rfl) _ _ h1 b h
  | hexadecimal h1 _ =>
    intro b hb
    rcases List.mem_append.1 hb with h | h
    · clear hb; revert b; decide
    · exact key 16 (Or.inr rfl) _ _ h1 b h

end Xcore.Xml
