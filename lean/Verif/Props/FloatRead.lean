import Verif.Spec.FloatText
import Verif.Proofs.FloatText
import Mathlib.Data.List.TakeWhile
import Mathlib.Tactic.LinearCombination

/-! # C67: which texts are read as amounts -/

namespace Bitforge
open Spec

theorem isSpaceChar_iff (c : Char) : isSpaceChar c = true ↔ c.toNat ∈ spaces := by
  unfold isSpaceChar spaces
  simp only [Bool.or_eq_true, Bool.and_eq_true, decide_eq_true_eq, List.mem_cons, List.not_mem_nil, or_false]
  omega

theorem encodeDecimalChar_iff (c s : Char) : encodeDecimalChar c = some s ↔ Seen c s := by
  unfold encodeDecimalChar
  by_cases hs : isSpaceChar c = true
  · rw [if_pos hs]
    simp only [Option.some.injEq]
    constructor
    · rintro rfl
      exact .space ((isSpaceChar_iff c).1 hs)
    · intro h
      cases h with
      | space => rfl
      | digit h _ =>
        have := digit_not_space (digitChar_isDigit h)
        rw [hs] at this
        cases this
      | other h => exact absurd ((isSpaceChar_iff c).1 hs) h
  · rw [if_neg hs]
    have hs' : c.toNat ∉ spaces := fun h => hs ((isSpaceChar_iff c).2 h)
    cases hd : decimalValue c with
    | some d =>
      have hd' := (decimalValue_iff c d).1 hd
      have hlt := digitChar_lt hd'
      simp only [Option.some.injEq]
      constructor
      · rintro rfl
        exact .digit hd' (digitChar_toNat hlt)
      · intro h
        cases h with
        | space h => exact absurd h hs'
        | digit h h' =>
          rw [← Char.ofNat_toNat s, ← Char.ofNat_toNat (digitChar d), h', digitChar_toNat hlt, digitChar_unique hd' h]
        | other _ h => exact absurd hd' (h d)
    | none =>
      have hn : ∀ d, ¬ DigitChar c d := fun d h => by
        have := (decimalValue_iff c d).2 h
        rw [hd] at this
        cases this
      simp only
      constructor
      · intro h
        split at h
        · next hr => cases h; exact .other hs' hn hr.1 hr.2
        · cases h
      · intro h
        cases h with
        | space h => exact absurd h hs'
        | digit h _ => exact absurd h (hn _)
        | other _ _ h1 h2 => rw [if_pos ⟨h1, h2⟩]

theorem encodeDecimal_iff : ∀ (t s : Text), encodeDecimal t = .ok s ↔ List.Forall₂ Seen t s
  | [], s => by
    constructor
    · intro h; injection h with h; rw [← h]; exact .nil
    · intro h; cases h; rfl
  | c :: t, s => by
    unfold encodeDecimal
    constructor
    · intro h
      cases hc : encodeDecimalChar c with
      | none => rw [hc] at h; cases h
      | some c' =>
        rw [hc] at h
        simp only at h
        cases ht : encodeDecimal t with
        | error e => rw [ht] at h; cases h
        | ok t' =>
          rw [ht] at h
          injection h with h
          rw [← h]
          exact .cons ((encodeDecimalChar_iff c c').1 hc) ((encodeDecimal_iff t t').1 ht)
    · intro h
      cases h with
      | cons h1 h2 => rw [(encodeDecimalChar_iff _ _).2 h1, (encodeDecimal_iff _ _).2 h2]

/-! ## The literal -/

theorem all_digits {t : Text} : Digits (t.takeWhile Char.isDigit) := by
  rw [digits_iff, List.all_eq_true]
  intro c hc
  exact List.mem_takeWhile_imp hc

theorem parseExponent_inv {t : Text} {e : Int} (h : parseExponent t = some e) : (t = [] ∧ e = 0) ∨ Exponent t e := by
  cases t with
  | nil => unfold parseExponent at h; injection h with h; exact .inl ⟨rfl, h.symm⟩
  | cons c t =>
    unfold parseExponent at h
    by_cases hm : c = 'e' ∨ c = 'E'
    swap
    · simp only [if_neg hm] at h
      cases h
    simp only [if_pos hm] at h
    right
    have key : ∀ (neg : Bool) (d : Text), (if d ≠ [] ∧ d.all Char.isDigit then
        some (if neg then -(decValue d : Int) else (decValue d : Int)) else none) = some e →
        Digits d ∧ d ≠ [] ∧ e = if neg then -(digitsValue d : Int) else digitsValue d := by
      intro neg d h
      split at h
      · next hd =>
        injection h with h
        rw [← decValue_eq]
        exact ⟨digits_iff.2 hd.2, hd.1, h.symm⟩
      · cases h
    unfold splitSign at h
    split at h <;> simp only at h
    · next r =>
      obtain ⟨h1, h2, h3⟩ := key true r h
      exact ⟨r, c, h1, h2, hm, .inl ⟨rfl, h3⟩⟩
    · next r =>
      obtain ⟨h1, h2, h3⟩ := key false r h
      exact ⟨r, c, h1, h2, hm, .inr ⟨.inl rfl, h3⟩⟩
    · next r _ _ =>
      obtain ⟨h1, h2, h3⟩ := key false t h
      exact ⟨t, c, h1, h2, hm, .inr ⟨.inr rfl, h3⟩⟩

theorem parseDecimal_inv {t : Text} {q : ℚ} (h : parseDecimal t = some q) : Literal t q := by
  unfold parseDecimal at h
  simp only at h
  have ht : t = t.takeWhile Char.isDigit ++ t.dropWhile Char.isDigit := (List.takeWhile_append_dropWhile).symm
  set int := t.takeWhile Char.isDigit with hint
  set rest := t.dropWhile Char.isDigit with hrest
  have hi : Digits int := all_digits
  have key : ∀ (frac tail : Text), Digits frac → (rest = '.' :: frac ++ tail ∨ (frac = [] ∧ rest = tail)) →
      (if int = [] ∧ frac = [] then none else match parseExponent tail with
        | none => none
        | some e => some (decValue (int ++ frac) * (10 : ℚ) ^ (e - frac.length))) = some q → Literal t q := by
    intro frac tail hf hr h
    split at h
    · cases h
    next hne =>
    cases he : parseExponent tail with
    | none => rw [he] at h; cases h
    | some e =>
      rw [he] at h
      injection h with h
      have hplain : ∃ m, t = m ++ tail ∧ PlainDecimal m (digitsValue (int ++ frac) / 10 ^ frac.length) := by
        rcases hr with hr | ⟨rfl, hr⟩
        · refine ⟨int ++ '.' :: frac, by rw [ht, hr]; simp, int, frac, hi, hf, ?_, .inl rfl, rfl⟩
          intro hnil
          exact hne (List.append_eq_nil_iff.1 hnil)
        · refine ⟨int, by rw [ht, hr], int, [], hi, hf, ?_, .inr ⟨rfl, rfl⟩, rfl⟩
          intro hnil
          exact hne (List.append_eq_nil_iff.1 hnil)
      obtain ⟨m, hm, hp⟩ := hplain
      have hval : q = digitsValue (int ++ frac) / 10 ^ frac.length * (10 : ℚ) ^ e := by
        rw [← h, decValue_eq, zpow_sub₀ (by norm_num), zpow_natCast]
        ring
      rcases parseExponent_inv he with ⟨rfl, rfl⟩ | he
      · left
        rw [hm, hval]
        simpa using hp
      · exact .inr ⟨m, tail, _, e, hm, hp, he, hval⟩
  have hsplit : (∃ r, rest = '.' :: r ∧ splitFraction rest = (r.takeWhile Char.isDigit, r.dropWhile Char.isDigit)) ∨
      splitFraction rest = ([], rest) := by
    clear_value rest
    clear ht hrest h key
    unfold splitFraction
    split
    · exact .inl ⟨_, rfl, rfl⟩
    · exact .inr rfl
  rcases hsplit with ⟨r, hr, hsp⟩ | hsp
  · rw [hsp] at h
    exact key _ _ all_digits (.inl (by rw [hr, List.cons_append, List.takeWhile_append_dropWhile])) h
  · rw [hsp] at h
    exact key [] rest (fun _ hc => absurd hc (by simp)) (.inr ⟨rfl, rfl⟩) h

theorem literal_pos {t : Text} {q : ℚ} (h : Literal t q) : 0 ≤ q := by
  have hp : ∀ {m p}, PlainDecimal m p → 0 ≤ p := by
    rintro m p ⟨a, b, -, -, -, -, rfl⟩
    positivity
  rcases h with h | ⟨m, x, p, e, -, hm, -, rfl⟩
  · exact hp h
  · exact mul_nonneg (hp hm) (ten_zpow_pos e).le

/-! ## Strip and sign -/

theorem strip_spec (s : Text) : ∃ a b : Text, s = a ++ (stripText s ++ b) ∧ (∀ c ∈ a, c = ' ') ∧ (∀ c ∈ b, c = ' ') := by
  have h1 : s = s.takeWhile (· = ' ') ++ s.dropWhile (· = ' ') := List.takeWhile_append_dropWhile.symm
  set d := s.dropWhile (· = ' ') with hd
  have h2 : d.reverse = d.reverse.takeWhile (· = ' ') ++ d.reverse.dropWhile (· = ' ') :=
    List.takeWhile_append_dropWhile.symm
  have h3 : d = (d.reverse.dropWhile (· = ' ')).reverse ++ (d.reverse.takeWhile (· = ' ')).reverse := by
    rw [← List.reverse_append, ← h2, List.reverse_reverse]
  refine ⟨s.takeWhile (· = ' '), (d.reverse.takeWhile (· = ' ')).reverse, ?_, ?_, ?_⟩
  · unfold stripText
    rw [← hd, ← h3]
    exact h1
  · intro c hc
    simpa using List.mem_takeWhile_imp hc
  · intro c hc
    simpa using List.mem_takeWhile_imp (List.mem_reverse.1 hc)

theorem strip_unique {a m b : Text} (ha : ∀ c ∈ a, c = ' ') (hb : ∀ c ∈ b, c = ' ') (hm : ∀ c ∈ m, c ≠ ' ') :
    stripText (a ++ (m ++ b)) = if m = [] then [] else m := by
  have key : ∀ (a s : Text), (∀ c ∈ a, c = ' ') → (∀ c r, s = c :: r → c ≠ ' ') →
      (a ++ s).dropWhile (· = ' ') = s := by
    intro a s ha hs
    rw [List.dropWhile_append_of_pos (fun c hc => by simpa using ha c hc)]
    cases s with
    | nil => rfl
    | cons c r => rw [List.dropWhile_cons, decide_eq_false (hs c r rfl)]; simp
  unfold stripText
  by_cases hme : m = []
  · subst hme
    rw [if_pos rfl, List.nil_append, ← List.append_nil (a ++ b), key (a ++ b) [] ?_ (by simp)]
    · rfl
    · intro c hc
      rcases List.mem_append.1 hc with hc | hc
      · exact ha c hc
      · exact hb c hc
  · rw [if_neg hme, key a (m ++ b) ha ?_, List.reverse_append, key b.reverse m.reverse ?_ ?_, List.reverse_reverse]
    · intro c hc; exact hb c (List.mem_reverse.1 hc)
    · intro c r hr; exact hm c (List.mem_reverse.1 (by rw [hr]; simp))
    · intro c r hr
      cases m with
      | nil => exact absurd rfl hme
      | cons x m =>
        rw [List.cons_append] at hr
        injection hr with hr
        rw [← hr]
        exact hm x (by simp)

/-- Bodies have neither sign nor spaces. -/
def Body (t : Text) : Prop := (∀ c ∈ t, c ≠ ' ') ∧ ∃ c r, t = c :: r ∧ c ≠ '+' ∧ c ≠ '-'

theorem literal_body {t : Text} {q : ℚ} (h : Literal t q) : Body t := by
  refine ⟨fun c hc => by rintro rfl; exact absurd (literal_chars h _ hc) (by decide), ?_⟩
  obtain ⟨c, r, rfl, hc⟩ := literal_head h
  refine ⟨c, r, rfl, ?_, ?_⟩ <;> rintro rfl <;> exact absurd hc (by decide)

theorem word_body {w : String} {t : Text} (h : Word w t) (hw : Body w.toList)
    (hl : ∀ c ∈ w.toList, c ≠ '+' ∧ c ≠ '-') : Body t := by
  unfold Word at h
  have hc : ∀ c ∈ t, c ≠ ' ' ∧ c ≠ '+' ∧ c ≠ '-' := by
    intro c hc
    have : c.toLower ∈ w.toList := by rw [← h]; exact List.mem_map_of_mem hc
    refine ⟨?_, ?_, ?_⟩
    · rintro rfl; exact hw.1 _ this (by decide)
    · rintro rfl; exact (hl _ this).1 (by decide)
    · rintro rfl; exact (hl _ this).2 (by decide)
  refine ⟨fun c h => (hc c h).1, ?_⟩
  cases t with
  | nil =>
    obtain ⟨c, r, hr, -⟩ := hw.2
    rw [← h] at hr
    cases hr
  | cons c r => exact ⟨c, r, rfl, (hc c (by simp)).2⟩

theorem signed_split {t : Text} {neg : Bool} {body : Text} (h : Signed t neg body) (hb : Body body) :
    ∃ s, encodeDecimal t = .ok s ∧ splitSign (stripText s) = (neg, body) := by
  obtain ⟨s, a, sign, b, h1, rfl, ha, hb', hs⟩ := h
  refine ⟨_, (encodeDecimal_iff _ _).2 h1, ?_⟩
  obtain ⟨hsp, c, r, rfl, hc1, hc2⟩ := hb
  rw [show a ++ (sign ++ (c :: r ++ b)) = a ++ ((sign ++ (c :: r)) ++ b) by simp,
    strip_unique ha hb' ?_, if_neg (by simp)]
  · rcases hs with ⟨rfl | rfl, rfl⟩ | ⟨rfl, rfl⟩
    · simp only [List.nil_append]
      unfold splitSign
      split
      · rename_i heq; injection heq with heq; exact absurd heq hc2
      · rename_i heq; injection heq with heq; exact absurd heq hc1
      · rfl
    · rfl
    · rfl
  · intro x hx
    rcases List.mem_append.1 hx with hx | hx
    · rcases hs with ⟨rfl | rfl, -⟩ | ⟨rfl, -⟩
      · cases hx
      · simp only [List.mem_singleton] at hx; rw [hx]; decide
      · simp only [List.mem_singleton] at hx; rw [hx]; decide
    · exact hsp x hx

theorem signed_of {t s : Text} (h : encodeDecimal t = .ok s) :
    Signed t (splitSign (stripText s)).1 (splitSign (stripText s)).2 := by
  obtain ⟨a, b, h1, ha, hb⟩ := strip_spec s
  have h2 := (encodeDecimal_iff _ _).1 h
  generalize stripText s = m at h1
  unfold splitSign
  split
  · exact ⟨s, a, ['-'], b, h2, by rw [h1]; simp, ha, hb, .inr ⟨rfl, rfl⟩⟩
  · exact ⟨s, a, ['+'], b, h2, by rw [h1]; simp, ha, hb, .inl ⟨.inr rfl, rfl⟩⟩
  · exact ⟨s, a, [], b, h2, by rw [h1]; simp, ha, hb, .inl ⟨.inl rfl, rfl⟩⟩

/-! ## The value -/

/-- The rounded number is unique. -/
theorem rounded_unique {q v w : ℚ} (hv : Rounded64 q v) (hw : Rounded64 q w) : v = w := by
  by_contra hne
  obtain ⟨k, hk⟩ := hv.2 w hw.1 (Ne.symm hne)
  obtain ⟨l, hl⟩ := hw.2 v hv.1 hne
  have hpos : 0 < |w - v| := abs_pos.2 (sub_ne_zero.2 (Ne.symm hne))
  rw [abs_sub_comm] at hl
  have h1 : |w - v| = |2 * ((l : ℚ) - k)| * |w - v| := by
    conv_lhs => rw [show w - v = 2 * ((l : ℚ) - k) * |w - v| by linear_combination hl - hk]
    rw [abs_mul, abs_abs]
  have h2 : |2 * ((l : ℚ) - k)| = 1 := by
    have := mul_right_cancel₀ hpos.ne' ((one_mul |w - v|).trans h1)
    exact this.symm
  have h3 : |2 * (l - k)| = 1 := by exact_mod_cast h2
  rcases (abs_eq (by decide)).1 h3 with h | h <;> omega

theorem rnd_iff {q v : ℚ} : Float64.rnd q = .fin v ↔ Rounded64 q v ∧ |q| < 2 ^ 970 * (2 ^ 54 - 1) := by
  constructor
  · intro h
    exact ⟨Float64.rnd_rounded h, (Float64.rnd_finite_iff q).1 ⟨v, h⟩⟩
  · rintro ⟨h1, h2⟩
    obtain ⟨w, hw⟩ := (Float64.rnd_finite_iff q).2 h2
    rw [hw, rounded_unique h1 (Float64.rnd_rounded hw)]

theorem rnd_overflow {q : ℚ} (h : 2 ^ 970 * (2 ^ 54 - 1) ≤ q) (neg : Bool) :
    Float64.rnd (if neg then -q else q) = .inf neg := by
  have hr := Float64.raw_ge h
  have hp : (0 : ℚ) < 2 ^ 1024 := by positivity
  have hpos : 0 < Float64.raw q := lt_of_lt_of_le hp hr
  cases neg
  · simp only [Bool.false_eq_true, if_false]
    rw [Float64.rnd_eq, abs_of_pos hpos, if_neg (not_lt.2 hr), decide_eq_false (not_lt.2 hpos.le)]
  · simp only [if_true]
    rw [Float64.rnd_eq, Float64.raw_neg, abs_neg, abs_of_pos hpos, if_neg (not_lt.2 hr),
      decide_eq_true (neg_neg_of_pos hpos)]

theorem word_not_literal {w : String} {t : Text} {q : ℚ} (h : Word w t) (hl : Literal t q)
    (hw : ∀ c r, w.toList = c :: r → c.toNat ∉ List.range' 48 10 ∧ c ≠ '.') : False := by
  obtain ⟨c, r, rfl, hc⟩ := literal_head hl
  obtain ⟨h1, h2⟩ := hw c.toLower (r.map Char.toLower) h.symm
  rcases hc with hc | rfl
  · simp only [Char.isDigit, Bool.and_eq_true, decide_eq_true_eq] at hc
    have hn1 : 48 ≤ c.toNat := hc.1
    have hn2 : c.toNat ≤ 57 := hc.2
    have : c.toLower = c := by
      unfold Char.toLower
      rw [dif_neg]
      intro h
      have : 65 ≤ c.toNat := h.1
      omega
    rw [this] at h1
    exact h1 (List.mem_range'_1.2 ⟨hn1, by omega⟩)
  · exact h2 (by decide)

/-- C67. Exactly which texts `float` reads, and as which number. -/
theorem C67_float (t : Text) (x : Float64) : parseFloat t = .ok x ↔ FloatOf t x := by
  have winf : Body "inf".toList := ⟨by decide, 'i', "nf".toList, rfl, by decide, by decide⟩
  have winfinity : Body "infinity".toList := ⟨by decide, 'i', "nfinity".toList, rfl, by decide, by decide⟩
  have wnan : Body "nan".toList := ⟨by decide, 'n', "an".toList, rfl, by decide, by decide⟩
  have hinf : ∀ {b : Text} {q : ℚ}, Literal b q → ¬ (Word "inf" b ∨ Word "infinity" b) := by
    rintro b q hl (h | h)
    · exact word_not_literal h hl (by rintro c r h; cases h; decide)
    · exact word_not_literal h hl (by rintro c r h; cases h; decide)
  have hnan : ∀ {b : Text} {q : ℚ}, Literal b q → ¬ Word "nan" b := fun hl h =>
    word_not_literal h hl (by rintro c r h; cases h; decide)
  unfold parseFloat
  constructor
  · intro h
    cases he : encodeDecimal t with
    | error e => rw [he] at h; cases h
    | ok s =>
      rw [he] at h
      simp only at h
      have hs := signed_of he
      generalize (splitSign (stripText s)).1 = neg at h hs
      generalize (splitSign (stripText s)).2 = body at h hs
      split at h
      · next hw => injection h with h; rw [← h]; exact .infinity hs hw
      · split at h
        · next hw => injection h with h; rw [← h]; exact .nan hs hw
        · cases hp : parseDecimal body with
          | none => rw [hp] at h; cases h
          | some q =>
            rw [hp] at h
            injection h with h
            have hl := parseDecimal_inv hp
            by_cases hq : |q| < 2 ^ 970 * (2 ^ 54 - 1)
            · obtain ⟨v, hv⟩ := (Float64.rnd_finite_iff (if neg then -q else q)).2
                (by cases neg <;> simpa using hq)
              rw [← h, hv]
              exact .finite hs hl (Float64.rnd_rounded hv) hq
            · rw [abs_of_nonneg (literal_pos hl), not_lt] at hq
              rw [← h, rnd_overflow hq]
              exact .overflow hs hl hq
  · intro h
    cases h with
    | @finite neg body q v hs hl hr hq =>
      obtain ⟨s, h1, h2⟩ := signed_split hs (literal_body hl)
      rw [h1]
      simp only [h2]
      have hi := hinf hl
      have hn := hnan hl
      unfold Word at hi hn
      rw [if_neg hi, if_neg hn]
      simp only [parseDecimal_literal hl]
      rw [rnd_iff.2 ⟨hr, by cases neg <;> simpa using hq⟩]
    | @overflow neg body q hs hl hq =>
      obtain ⟨s, h1, h2⟩ := signed_split hs (literal_body hl)
      rw [h1]
      simp only [h2]
      have hi := hinf hl
      have hn := hnan hl
      unfold Word at hi hn
      rw [if_neg hi, if_neg hn]
      simp only [parseDecimal_literal hl]
      rw [rnd_overflow hq]
    | @infinity neg body hs hw =>
      have hb : Body body := by
        rcases hw with hw | hw
        · exact word_body hw winf (by decide)
        · exact word_body hw winfinity (by decide)
      obtain ⟨s, h1, h2⟩ := signed_split hs hb
      rw [h1]
      simp only [h2]
      unfold Word at hw
      rw [if_pos hw]
    | @nan neg body hs hw =>
      obtain ⟨s, h1, h2⟩ := signed_split hs (word_body hw wnan (by decide))
      rw [h1]
      simp only [h2]
      unfold Word at hw
      rw [hw, if_neg (by decide), if_pos rfl]

/-- C67. Why a text is not read: a character outside Latin-1 that is no digit or space, or the form. -/
theorem C67_float_error (t : Text) (e : Err) : parseFloat t = .error e ↔
    (e = .unicodeEncodeError ∧ ∃ c ∈ t, ∀ s, ¬ Seen c s) ∨
    (e = .valueError ∧ (∀ c ∈ t, ∃ s, Seen c s) ∧ ∀ x, ¬ FloatOf t x) := by
  have hval : ∀ s, encodeDecimal t = .ok s → parseFloat t = .error e → e = .valueError := by
    intro s he h
    unfold parseFloat at h
    rw [he] at h
    simp only at h
    split at h
    · cases h
    split at h
    · cases h
    split at h
    · injection h with h; exact h.symm
    · cases h
  have hseen : (∃ s, encodeDecimal t = .ok s) ↔ ∀ c ∈ t, ∃ s, Seen c s := by
    constructor
    · rintro ⟨s, h⟩ c hc
      cases hx : encodeDecimalChar c with
      | none => exact absurd hx (encodeDecimal_some h c hc)
      | some x => exact ⟨x, (encodeDecimalChar_iff c x).1 hx⟩
    · intro h
      cases he : encodeDecimal t with
      | ok s => exact ⟨s, rfl⟩
      | error e =>
        obtain ⟨-, c, hc, hn⟩ := encodeDecimal_error he
        obtain ⟨s, hs⟩ := h c hc
        rw [(encodeDecimalChar_iff c s).2 hs] at hn
        cases hn
  constructor
  · intro h
    cases he : encodeDecimal t with
    | error e' =>
      obtain ⟨h1, c, hc, hn⟩ := encodeDecimal_error he
      left
      unfold parseFloat at h
      rw [he] at h
      injection h with h
      refine ⟨h ▸ h1, c, hc, fun s hs => ?_⟩
      rw [(encodeDecimalChar_iff c s).2 hs] at hn
      cases hn
    | ok s =>
      refine .inr ⟨hval s he h, hseen.1 ⟨s, he⟩, fun x hx => ?_⟩
      rw [(C67_float t x).2 hx] at h
      cases h
  · rintro (⟨rfl, c, hc, hn⟩ | ⟨rfl, h1, h2⟩)
    · cases he : encodeDecimal t with
      | ok s =>
        obtain ⟨s', hs'⟩ := hseen.1 ⟨s, he⟩ c hc
        exact absurd hs' (hn s')
      | error e' =>
        unfold parseFloat
        rw [he, (encodeDecimal_error he).1]
    · obtain ⟨s, hs⟩ := hseen.2 h1
      cases hp : parseFloat t with
      | ok x => exact absurd ((C67_float t x).1 hp) (h2 x)
      | error e' =>
                    congr 1
                    unfold parseFloat at hp
                    rw [hs] at hp
                    simp only at hp
                    split at hp
                    · cases hp
                    split at hp
                    · cases hp
                    split at hp
                    · injection hp with h; exact h.symm
                    · cases hp

/-- Full-width digits, an ideographic space. -/
example : FloatOf "　+１.５ ".toList (.fin 1.5) := (C67_float _ _).1 (by decide +kernel)
example : ∀ x, ¬ FloatOf "1,5".toList x := fun x h => by
  have := (C67_float _ _).2 h
  rw [show parseFloat "1,5".toList = .error .valueError by decide +kernel] at this
  cases this

end Bitforge
