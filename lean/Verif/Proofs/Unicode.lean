import Verif.Unicode
import Verif.Spec.Decimal
import Mathlib.Tactic.IntervalCases
import Mathlib.Tactic.Ring

/-! # Decimal digits of Unicode -/

namespace Bitforge
open Spec

theorem lookupRun_mem {n v : Nat} : ∀ {l : List (Nat × Nat × Nat)}, lookupRun n l = some v →
    ∃ r ∈ l, r.1 ≤ n ∧ n < r.1 + r.2.1 ∧ v = r.2.2 + (n - r.1)
  | [], h => by cases h
  | (a, b, c) :: l, h => by
    unfold lookupRun at h
    split at h
    · next hr => exact ⟨(a, b, c), by simp, hr.1, hr.2, (Option.some.inj h).symm⟩
    · obtain ⟨r, hr, h⟩ := lookupRun_mem h
      exact ⟨r, by simp [hr], h⟩

theorem lookupRun_of_mem {n : Nat} : ∀ {l : List (Nat × Nat × Nat)},
    l.Pairwise (fun r s => r.1 + r.2.1 ≤ s.1 ∨ s.1 + s.2.1 ≤ r.1) → ∀ r ∈ l, r.1 ≤ n → n < r.1 + r.2.1 →
    lookupRun n l = some (r.2.2 + (n - r.1))
  | [], _, _, hr, _, _ => by cases hr
  | (a, b, c) :: l, hp, r, hr, h1, h2 => by
    obtain ⟨hp1, hp2⟩ := List.pairwise_cons.1 hp
    unfold lookupRun
    rcases List.mem_cons.1 hr with rfl | hr
    · rw [if_pos ⟨h1, h2⟩]
    · have := hp1 r hr
      simp only at this
      rw [if_neg (by omega)]
      exact lookupRun_of_mem hp2 r hr h1 h2

theorem decimalRuns_eq : decimalRuns = zeros.map (fun z => (z, 10, 0)) ++ [(0x19DA, 1, 1)] := by decide

theorem decimalRuns_disjoint :
    decimalRuns.Pairwise (fun r s => r.1 + r.2.1 ≤ s.1 ∨ s.1 + s.2.1 ≤ r.1) := by decide +kernel

/-- The table is the specification's. -/
theorem decimalValue_iff (c : Char) (d : Nat) : decimalValue c = some d ↔ DigitChar c d := by
  unfold decimalValue DigitChar
  constructor
  · intro h
    obtain ⟨r, hr, h1, h2, h3⟩ := lookupRun_mem h
    rw [decimalRuns_eq, List.mem_append, List.mem_map, List.mem_singleton] at hr
    rcases hr with ⟨z, hz, rfl⟩ | rfl
    · simp only at h1 h2 h3
      exact .inl ⟨by omega, z, hz, by omega⟩
    · simp only at h1 h2 h3
      exact .inr ⟨by omega, by omega⟩
  · rintro (⟨hd, z, hz, h⟩ | ⟨h, rfl⟩)
    · rw [lookupRun_of_mem decimalRuns_disjoint (z, 10, 0)
        (by rw [decimalRuns_eq]; exact List.mem_append_left _ (List.mem_map_of_mem hz))
        (by simp only; omega) (by simp only; omega)]
      simp only [Option.some.injEq]
      omega
    · rw [h]
      decide

theorem digitChar_unique {c : Char} {d e : Nat} (h : DigitChar c d) (h' : DigitChar c e) : d = e := by
  rw [← decimalValue_iff] at h h'
  exact Option.some.inj (h.symm.trans h')

theorem digitChar_lt {c : Char} {d : Nat} (h : DigitChar c d) : d < 10 := by
  rcases h with h | h
  · exact h.1
  · omega

/-- The characters that are spaces. -/
theorem isSpaceChar_cases {c : Char} (h : isSpaceChar c = true) :
    c.toNat ∈ [9, 10, 11, 12, 13, 28, 29, 30, 31, 32, 0x85, 0xa0, 0x1680, 0x180e, 0x2000, 0x2001, 0x2002, 0x2003, 0x2004,
      0x2005, 0x2006, 0x2007, 0x2008, 0x2009, 0x200a, 0x2028, 0x2029, 0x202f, 0x205f, 0x3000] := by
  unfold isSpaceChar at h
  simp only [Bool.or_eq_true, Bool.and_eq_true, decide_eq_true_eq] at h
  simp only [List.mem_cons, List.not_mem_nil, or_false]
  omega

theorem space_not_digit {c : Char} (h : isSpaceChar c = true) : isDigitChar c = false := by
  have hm := isSpaceChar_cases h
  have e : c = Char.ofNat c.toNat := (Char.ofNat_toNat c).symm
  generalize c.toNat = n at hm e
  subst e
  revert n
  decide +kernel

theorem digit_not_space {c : Char} (h : isDigitChar c = true) : isSpaceChar c = false := by
  by_contra hs
  rw [space_not_digit (by simpa using hs)] at h
  cases h

theorem digitChar_isDigit {c : Char} {d : Nat} (h : DigitChar c d) : isDigitChar c = true := by
  unfold isDigitChar
  rw [(decimalValue_iff c d).2 h]
  rfl

theorem digitChar_toNat {d : Nat} (h : d < 10) : (digitChar d).toNat = 48 + d := by
  interval_cases d <;> decide

theorem ascii_digit {c : Char} (h : '0'.toNat ≤ c.toNat ∧ c.toNat ≤ '9'.toNat) : DigitChar c (c.toNat - 48) := by
  rw [show '0'.toNat = 48 from rfl, show '9'.toNat = 57 from rfl] at h
  exact .inl ⟨by omega, 0x30, by decide, by omega⟩

theorem encodeDecimal_digits : ∀ {t : Text} {ds : List Nat}, List.Forall₂ DigitChar t ds →
    encodeDecimal t = .ok (ds.map digitChar)
  | [], _, .nil => rfl
  | c :: t, d :: ds, .cons h hs => by
    unfold encodeDecimal encodeDecimalChar
    rw [digit_not_space (digitChar_isDigit h), (decimalValue_iff c d).2 h, encodeDecimal_digits hs]
    rfl

/-- A digit without decimal value is not taken for one. -/
theorem other_digit {c : Char} (h : isDigitChar c = true) (hn : decimalValue c = none) (hc : c.toNat < 256) :
    c.isDigit = false := by
  unfold isDigitChar at h
  rw [hn] at h
  simp only [Option.isSome_none, Bool.false_or, digitRuns, List.any_cons, List.any_nil, Bool.or_false, Bool.or_eq_true,
    Bool.and_eq_true, decide_eq_true_eq] at h
  have hm : c.toNat ∈ [0xB2, 0xB3, 0xB9] := by
    simp only [List.mem_cons, List.not_mem_nil, or_false]
    omega
  have e : c = Char.ofNat c.toNat := (Char.ofNat_toNat c).symm
  generalize c.toNat = n at hm e
  subst e
  revert n
  decide +kernel

theorem isDigit_iff' (c : Char) : c.isDigit = true ↔ '0'.toNat ≤ c.toNat ∧ c.toNat ≤ '9'.toNat := by
  simp only [Char.isDigit, ge_iff_le, Bool.and_eq_true, decide_eq_true_eq]
  exact Iff.rfl

theorem digitChar_isDigit' {d : Nat} (h : d < 10) : (digitChar d).isDigit = true := by
  rw [isDigit_iff', digitChar_toNat h]
  exact ⟨by simp, by rw [show '9'.toNat = 57 from rfl]; omega⟩

/-- What `encodeDecimal` makes of digits, if they are digits afterwards. -/
theorem encodeDecimal_inv : ∀ {t s : Text}, (∀ c ∈ t, isDigitChar c = true) → encodeDecimal t = .ok s →
    (∀ c ∈ s, c.isDigit = true) → ∃ ds, List.Forall₂ DigitChar t ds ∧ s = ds.map digitChar
  | [], s, _, h, _ => by
    cases h
    exact ⟨[], .nil, rfl⟩
  | c :: t, s, ht, h, hs => by
    have hc := ht c (by simp)
    unfold encodeDecimal at h
    cases he : encodeDecimalChar c with
    | none => rw [he] at h; cases h
    | some c' =>
      rw [he] at h
      simp only at h
      cases ht' : encodeDecimal t with
      | error e => rw [ht'] at h; cases h
      | ok t' =>
        rw [ht'] at h
        cases h
        obtain ⟨ds, h1, rfl⟩ := encodeDecimal_inv (fun c hc => ht c (by simp [hc])) ht' (fun c hc => hs c (by simp [hc]))
        unfold encodeDecimalChar at he
        rw [digit_not_space hc] at he
        simp only [Bool.false_eq_true, if_false] at he
        cases hd : decimalValue c with
        | some d =>
          rw [hd] at he
          cases he
          exact ⟨d :: ds, .cons ((decimalValue_iff c d).1 hd) h1, rfl⟩
        | none =>
          rw [hd] at he
          simp only at he
          split at he
          · next hr =>
            cases he
            have := hs c (by simp)
            rw [other_digit hc hd hr.2] at this
            cases this
          · cases he

theorem intOfText_map' (ds : List Nat) (h : ∀ d ∈ ds, d < 10) (a : Nat) :
    (ds.map digitChar).foldl (fun n c => n * 10 + (c.toNat - '0'.toNat)) a =
      a * 10 ^ ds.length + Nat.ofDigits 10 ds.reverse := by
  induction ds generalizing a with
  | nil => simp
  | cons d ds ih =>
    rw [List.map_cons, List.foldl_cons, ih fun e he => h e (by simp [he]), digitChar_toNat (h d (by simp)),
      List.reverse_cons, Nat.ofDigits_append]
    simp only [show '0'.toNat = 48 from rfl, Nat.add_sub_cancel_left, List.length_cons, List.length_reverse,
      Nat.ofDigits_singleton]
    ring

theorem numeral_chars {t : Text} {ds : List Nat} (h : List.Forall₂ DigitChar t ds) :
    (∀ c ∈ t, isDigitChar c = true) ∧ ∀ d ∈ ds, d < 10 := by
  induction h with
  | nil => exact ⟨by simp, by simp⟩
  | cons h hs ih =>
    refine ⟨fun c hc => ?_, fun d hd => ?_⟩
    · rcases List.mem_cons.1 hc with rfl | hc
      · exact digitChar_isDigit h
      · exact ih.1 c hc
    · rcases List.mem_cons.1 hd with rfl | hd
      · exact digitChar_lt h
      · exact ih.2 d hd

/-- `isdigit` and `int` together read the numerals. -/
theorem numeral_iff (t : Text) (n : Nat) : isDigitText t = true ∧ intOfDigits t = .ok n ↔ Numeral t n := by
  unfold isDigitText intOfDigits Numeral
  simp only [decide_eq_true_eq, List.all_eq_true]
  constructor
  · rintro ⟨⟨hne, hd⟩, h⟩
    refine ⟨hne, ?_⟩
    cases he : encodeDecimal t with
    | error e => rw [he] at h; cases h
    | ok s =>
      rw [he] at h
      simp only at h
      split at h
      · next hs =>
        obtain ⟨ds, h1, rfl⟩ := encodeDecimal_inv hd he hs
        refine ⟨ds, h1, ?_⟩
        have := intOfText_map' ds (numeral_chars h1).2 0
        rw [zero_mul, zero_add] at this
        rw [← this]
        exact Except.ok.inj h
      · cases h
  · rintro ⟨hne, ds, h1, rfl⟩
    refine ⟨⟨hne, (numeral_chars h1).1⟩, ?_⟩
    rw [encodeDecimal_digits h1]
    simp only
    rw [if_pos]
    · have := intOfText_map' ds (numeral_chars h1).2 0
      rw [zero_mul, zero_add] at this
      rw [← this]
      rfl
    · intro c hc
      obtain ⟨d, hd, rfl⟩ := List.mem_map.1 hc
      exact digitChar_isDigit' ((numeral_chars h1).2 d hd)

/-- ASCII digits are numerals. -/
theorem numeral_ascii {t : Text} (hne : t ≠ []) (h : Digits t) : Numeral t (digitsValue t) := by
  refine ⟨hne, t.map fun c => c.toNat - 48, ?_, by rw [← List.map_reverse]; rfl⟩
  rw [List.forall₂_map_right_iff, List.forall₂_same]
  exact fun c hc => ascii_digit (h c hc)

/-- Visible ASCII characters are not changed. -/
theorem encodeDecimal_ascii : ∀ {t : Text}, (∀ c ∈ t, 33 ≤ c.toNat ∧ c.toNat < 128) → encodeDecimal t = .ok t
  | [], _ => rfl
  | c :: t, h => by
    have hc := h c (by simp)
    have hs : isSpaceChar c = false := by
      unfold isSpaceChar
      simp only [Bool.or_eq_false_iff, Bool.and_eq_false_iff, decide_eq_false_iff_not]
      omega
    have he : encodeDecimalChar c = some c := by
      unfold encodeDecimalChar
      rw [hs]
      simp only [Bool.false_eq_true, if_false]
      cases hd : decimalValue c with
      | none =>
        simp only
        rw [if_pos (by omega)]
      | some d =>
        have : c.toNat = 48 + d ∧ d < 10 := by
          rcases (decimalValue_iff c d).1 hd with ⟨h1, z, hz, h2⟩ | ⟨h1, _⟩
          · have hz' : z = 48 ∨ 128 ≤ z :=
              (by decide : ∀ z ∈ zeros, z = 48 ∨ 128 ≤ z) z hz
            omega
          · omega
        simp only [Option.some.injEq]
        rw [← Char.ofNat_toNat c, ← Char.ofNat_toNat (digitChar d), digitChar_toNat this.2, this.1]
    unfold encodeDecimal
    rw [he, encodeDecimal_ascii fun c hc => h c (by simp [hc])]

theorem digits_visible {t : Text} (h : Digits t) : ∀ c ∈ t, 33 ≤ c.toNat ∧ c.toNat < 128 := fun c hc => by
  have := h c hc
  rw [show '0'.toNat = 48 from rfl, show '9'.toNat = 57 from rfl] at this
  omega

theorem digits_isDigitText {t : Text} (hne : t ≠ []) (h : Digits t) : isDigitText t = true := by
  unfold isDigitText
  simp only [decide_eq_true_eq, List.all_eq_true]
  exact ⟨hne, fun c hc => digitChar_isDigit (ascii_digit (h c hc))⟩

theorem intOfDigits_ascii {t : Text} (h : Digits t) : intOfDigits t = .ok (intOfText t) := by
  unfold intOfDigits
  rw [encodeDecimal_ascii (digits_visible h)]
  simp only
  rw [if_pos]
  rw [List.all_eq_true]
  exact fun c hc => (isDigit_iff' c).2 (h c hc)

theorem encodeDecimal_error : ∀ {t : Text} {e : Err}, encodeDecimal t = .error e →
    e = .unicodeEncodeError ∧ ∃ c ∈ t, encodeDecimalChar c = none
  | [], _, h => by cases h
  | c :: t, e, h => by
    unfold encodeDecimal at h
    cases hc : encodeDecimalChar c with
    | none =>
      rw [hc] at h
      injection h with h
      exact ⟨h.symm, c, by simp, hc⟩
    | some c' =>
      rw [hc] at h
      simp only at h
      cases ht : encodeDecimal t with
      | ok s => rw [ht] at h; cases h
      | error e' =>
        rw [ht] at h
        injection h with h
        obtain ⟨h1, x, h2, h3⟩ := encodeDecimal_error ht
        exact ⟨h ▸ h1, x, by simp [h2], h3⟩

theorem encodeDecimal_some : ∀ {t s : Text}, encodeDecimal t = .ok s → ∀ c ∈ t, encodeDecimalChar c ≠ none
  | [], _, _ => by simp
  | c :: t, s, h => by
    unfold encodeDecimal at h
    cases hc : encodeDecimalChar c with
    | none => rw [hc] at h; cases h
    | some c' =>
      rw [hc] at h
      simp only at h
      cases ht : encodeDecimal t with
      | error e' => rw [ht] at h; cases h
      | ok s' =>
        intro x hx
        rcases List.mem_cons.1 hx with rfl | hx
        · rw [hc]; simp
        · exact encodeDecimal_some ht x hx

/-- Which digits cannot be encoded. -/
theorem encodeDecimalChar_none {c : Char} (h : isDigitChar c = true) :
    encodeDecimalChar c = none ↔ 256 ≤ c.toNat ∧ ∀ d, ¬ DigitChar c d := by
  unfold encodeDecimalChar
  rw [digit_not_space h]
  simp only [Bool.false_eq_true, if_false]
  cases hd : decimalValue c with
  | some d =>
    simp only [reduceCtorEq, false_iff, not_and, not_forall, not_not]
    exact fun _ => ⟨d, (decimalValue_iff c d).1 hd⟩
  | none =>
    have hn : ∀ d, ¬ DigitChar c d := fun d h => by
      have := (decimalValue_iff c d).2 h
      rw [hd] at this
      cases this
    have hpos : 0 < c.toNat := by
      unfold isDigitChar at h
      rw [hd] at h
      simp only [Option.isSome_none, Bool.false_or, List.any_eq_true, Bool.and_eq_true, decide_eq_true_eq] at h
      obtain ⟨r, hr, h1, -⟩ := h
      exact lt_of_lt_of_le ((by decide : ∀ r ∈ digitRuns, 0 < r.1) r hr) h1
    simp only
    split
    · simp only [reduceCtorEq, false_iff]
      omega
    · simp only [true_iff]
      exact ⟨by omega, hn⟩

/-- The digits below U+0100 that have no decimal value. -/
theorem superscript {c : Char} (h : isDigitChar c = true) (hn : ∀ d, ¬ DigitChar c d) (hc : c.toNat < 256) :
    c ∈ superscripts := by
  have hd : decimalValue c = none := by
    cases hd : decimalValue c with
    | none => rfl
    | some d => exact absurd ((decimalValue_iff c d).1 hd) (hn d)
  unfold isDigitChar at h
  rw [hd] at h
  simp only [Option.isSome_none, Bool.false_or, digitRuns, List.any_cons, List.any_nil, Bool.or_false, Bool.or_eq_true,
    Bool.and_eq_true, decide_eq_true_eq] at h
  have hm : c.toNat ∈ [0xB2, 0xB3, 0xB9] := by
    simp only [List.mem_cons, List.not_mem_nil, or_false]
    omega
  rw [← Char.ofNat_toNat c]
  exact (by decide : ∀ n ∈ [0xB2, 0xB3, 0xB9], Char.ofNat n ∈ superscripts) _ hm

/-- `int(text)` of digits. -/
theorem intOfDigits_cases {t : Text} (h : isDigitText t = true) :
    (∃ n, Numeral t n ∧ intOfDigits t = .ok n) ∨
    ((∃ c ∈ t, 256 ≤ c.toNat ∧ ∀ d, ¬ DigitChar c d) ∧ intOfDigits t = .error .unicodeEncodeError) ∨
    ((∀ c ∈ t, 256 ≤ c.toNat → ∃ d, DigitChar c d) ∧ (∃ c ∈ t, c ∈ superscripts) ∧
      intOfDigits t = .error .valueError) := by
  have hd : ∀ c ∈ t, isDigitChar c = true := by
    unfold isDigitText at h
    simp only [decide_eq_true_eq, List.all_eq_true] at h
    exact h.2
  cases he : encodeDecimal t with
  | error e =>
    obtain ⟨rfl, c, hc, hn⟩ := encodeDecimal_error he
    refine .inr (.inl ⟨⟨c, hc, (encodeDecimalChar_none (hd c hc)).1 hn⟩, ?_⟩)
    unfold intOfDigits
    rw [he]
  | ok s =>
    have hs := encodeDecimal_some he
    have hbig : ∀ c ∈ t, 256 ≤ c.toNat → ∃ d, DigitChar c d := by
      intro c hc h256
      by_contra hno
      exact hs c hc ((encodeDecimalChar_none (hd c hc)).2 ⟨h256, fun d hd => hno ⟨d, hd⟩⟩)
    cases hi : intOfDigits t with
    | ok n => exact .inl ⟨n, (numeral_iff t n).1 ⟨h, hi⟩, rfl⟩
    | error e =>
      right; right
      refine ⟨hbig, ?_, ?_⟩
      · by_contra hno
        have hall : ∀ c ∈ t, ∃ d, DigitChar c d := by
          intro c hc
          by_contra hno'
          have hno' : ∀ d, ¬ DigitChar c d := fun d hd => hno' ⟨d, hd⟩
          by_cases h256 : 256 ≤ c.toNat
          · exact absurd (hbig c hc h256) (by simpa using hno')
          · exact hno ⟨c, hc, superscript (hd c hc) hno' (by omega)⟩
        have : ∃ ds, List.Forall₂ DigitChar t ds := by
          clear hi hs he h hd hbig hno
          induction t with
          | nil => exact ⟨[], .nil⟩
          | cons c t ih =>
            obtain ⟨d, h1⟩ := hall c (by simp)
            obtain ⟨ds, h2⟩ := ih fun c hc => hall c (by simp [hc])
            exact ⟨d :: ds, .cons h1 h2⟩
        obtain ⟨ds, hds⟩ := this
        have hne : t ≠ [] := by rintro rfl; cases h
        have := ((numeral_iff t _).2 ⟨hne, ds, hds, rfl⟩).2
        rw [hi] at this
        cases this
      · unfold intOfDigits at hi
        rw [he] at hi
        simp only at hi
        split at hi
        · cases hi
        · exact hi.symm ▸ rfl

/-- `int(text)` fails only for digits beyond ASCII. -/
theorem intOfDigits_ascii_only {t : Text} {e : Err} (h : isDigitText t = true) (he : intOfDigits t = .error e) :
    (e = .unicodeEncodeError ∨ e = .valueError) ∧ ∃ c ∈ t, 128 ≤ c.toNat := by
  rcases intOfDigits_cases h with ⟨n, -, h'⟩ | ⟨⟨c, hc, h1, -⟩, h'⟩ | ⟨-, ⟨c, hc, h1⟩, h'⟩ <;> rw [he] at h'
  · cases h'
  · injection h' with h'
    exact ⟨.inl h', c, hc, by omega⟩
  · injection h' with h'
    exact ⟨.inr h', c, hc, (by decide : ∀ c ∈ superscripts, 128 ≤ c.toNat) c h1⟩

end Bitforge
