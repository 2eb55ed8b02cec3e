import Verif.Spec.Refused
import Verif.Props.Names
import Verif.Props.Errors

/-! # C108: why a text is refused as a script -/

namespace Bitforge
open Spec

theorem isDigitChar_iff (c : Char) : isDigitChar c = true ↔ (∃ d, DigitChar c d) ∨ OtherDigit c := by
  unfold isDigitChar OtherDigit
  rw [show otherDigits = digitRuns from rfl]
  simp only [Bool.or_eq_true, Option.isSome_iff_exists, decimalValue_iff, List.any_eq_true, Bool.and_eq_true,
    decide_eq_true_eq]

theorem isDigitText_iff (t : Text) : isDigitText t = true ↔ DigitText t := by
  unfold isDigitText DigitText
  simp only [decide_eq_true_eq, List.all_eq_true, isDigitChar_iff, ne_eq]

/-- No character is both. -/
theorem otherDigit_not {c : Char} (h : OtherDigit c) (d : Nat) : ¬ DigitChar c d := by
  obtain ⟨r, hr, h1, h2⟩ := h
  rw [← decimalValue_iff]
  unfold decimalValue
  intro hd
  obtain ⟨q, hq, h3, h4, -⟩ := lookupRun_mem hd
  have := (by decide : ∀ r ∈ otherDigits, ∀ q ∈ decimalRuns, r.2 < q.1 ∨ q.1 + q.2.1 ≤ r.1) r hr q hq
  omega

theorem numeral_char {t : Text} {ds : List Nat} (h : List.Forall₂ DigitChar t ds) {c : Char} (hc : c ∈ t) :
    ∃ d, DigitChar c d := by
  induction h with
  | nil => cases hc
  | cons h1 _ ih =>
    rcases List.mem_cons.1 hc with rfl | hc
    · exact ⟨_, h1⟩
    · exact ih hc

theorem var_not_const {op : Byte} (h : (Opcode.mk op).isVarPush = true) : (Opcode.mk op).isConstPush = false := by
  by_contra hc
  have := const_not_var op (by simpa using hc)
  rw [this] at h
  cases h

theorem intOfDigits_notNumber {t : Text} {e : Err} (h : NotNumber t e) :
    isDigitText t = true ∧ intOfDigits t = .error e := by
  cases h with
  | unencodable hd hc =>
    have hi := (isDigitText_iff t).2 hd
    refine ⟨hi, ?_⟩
    obtain ⟨c, hc, h1, h2⟩ := hc
    rcases intOfDigits_cases hi with ⟨n, ⟨-, ds, hds, -⟩, -⟩ | ⟨-, h⟩ | ⟨h, -⟩
    · obtain ⟨d, hd⟩ := numeral_char hds hc
      exact absurd hd (otherDigit_not h1 d)
    · exact h
    · obtain ⟨d, hd⟩ := h c hc h2
      exact absurd hd (otherDigit_not h1 d)
  | value hd hc hl =>
    have hi := (isDigitText_iff t).2 hd
    refine ⟨hi, ?_⟩
    obtain ⟨c, hc, h1⟩ := hc
    rcases intOfDigits_cases hi with ⟨n, ⟨-, ds, hds, -⟩, -⟩ | ⟨⟨c', hc', h2, h3⟩, h⟩ | ⟨-, -, h⟩
    · obtain ⟨d, hd⟩ := numeral_char hds hc
      exact absurd hd (otherDigit_not h1 d)
    · rcases hd.2 c' hc' with ⟨d, hd⟩ | ho
      · exact absurd hd (h3 d)
      · exact absurd (hl c' hc' ho) (by omega)
    · exact h

theorem notNumber_of {t : Text} {e : Err} (hi : isDigitText t = true) (h : intOfDigits t = .error e) :
    NotNumber t e := by
  have hd := (isDigitText_iff t).1 hi
  rcases intOfDigits_cases hi with ⟨n, -, h'⟩ | ⟨⟨c, hc, h1, h2⟩, h'⟩ | ⟨h1, ⟨c, hc, h2⟩, h'⟩ <;> rw [h] at h'
  · cases h'
  · cases h'
    refine .unencodable hd ⟨c, hc, ?_, h1⟩
    rcases hd.2 c hc with ⟨d, hd⟩ | ho
    · exact absurd hd (h2 d)
    · exact ho
  · cases h'
    refine .value hd ⟨c, hc, ?_⟩ fun c' hc' ho => ?_
    · have : ∀ c ∈ superscripts, ∃ r ∈ otherDigits, r.1 ≤ c.toNat ∧ c.toNat ≤ r.2 := by decide
      exact this c h2
    · by_contra hlt
      obtain ⟨d, hd⟩ := h1 c' hc' (by omega)
      exact otherDigit_not ho d hd

theorem numeral_digitText {t : Text} {n : Nat} (h : Numeral t n) : DigitText t :=
  (isDigitText_iff t).1 ((numeral_iff t n).2 h).1

/-- A word of digits is not a name. -/
theorem digits_not_name {t : Text} (h : DigitText t) (op : Byte) : ¬ NameOf t op := by
  rintro ⟨s, hs, rfl, hm⟩
  have hpre := (table_sound _ (List.mem_of_find?_eq_some (table_complete _ hm hs))).2.2.2
  have e : "OP_".toList = ['O', 'P', '_'] := by decide
  rw [e, List.isPrefixOf_iff_prefix] at hpre
  obtain ⟨r, hr⟩ := hpre
  have h1 := (isDigitText_iff _).2 h
  unfold isDigitText at h1
  simp only [decide_eq_true_eq, List.all_eq_true] at h1
  exact absurd (h1.2 'O' (by rw [← hr]; simp)) (by decide)

theorem pushArgument_error_iff (t : Text) (e : Err) : Script.pushArgument t = .error e ↔ NotHex t e := by
  have key : ∀ h, t = '0' :: 'x' :: h → Script.pushArgument t = decodeHex h := by
    rintro h rfl
    unfold Script.pushArgument
    rw [if_neg (by rw [zx]; simp [List.isPrefixOf])]
    rfl
  constructor
  · intro h
    by_cases hp : ∃ h', t = '0' :: 'x' :: h'
    · obtain ⟨h', hp⟩ := hp
      have hk := key h' hp
      by_cases ha : Ascii h'
      · have : e = .invalidHex := by
          rw [hk] at h
          unfold decodeHex at h
          rw [if_pos ((isAscii_iff _).2 ha)] at h
          split at h <;> cases h
          rfl
        subst this
        refine .digits hp ha fun b hb => ?_
        rw [(pushArgument_iff t b).2 hb] at h
        cases h
      · have : e = .unicodeEncodeError := by
          rw [hk] at h
          unfold decodeHex at h
          rw [if_neg (by rw [isAscii_iff]; exact ha)] at h
          cases h
          rfl
        subst this
        exact .unencodable hp ha
    · have hn : ∀ h', t ≠ '0' :: 'x' :: h' := fun h' he => hp ⟨h', he⟩
      have : e = .scrInvalidPushData := by
        unfold Script.pushArgument at h
        split at h
        · cases h; rfl
        · next hx =>
          rw [not_not, zx, List.isPrefixOf_iff_prefix] at hx
          obtain ⟨h', hx⟩ := hx
          exact absurd hx.symm (hn h')
      subst this
      exact .mark hn
  · intro h
    cases h with
    | mark hn =>
      unfold Script.pushArgument
      rw [if_pos]
      intro hx
      rw [zx, List.isPrefixOf_iff_prefix] at hx
      obtain ⟨h', hx⟩ := hx
      exact hn h' hx.symm
    | unencodable hp ha =>
      rw [key _ hp]
      unfold decodeHex
      rw [if_neg (by rw [isAscii_iff]; exact ha)]
    | digits hp ha hn =>
      cases hx : Script.pushArgument t with
      | ok b => exact absurd ((pushArgument_iff t b).1 hx) (hn b)
      | error e =>
        rw [key _ hp] at hx
        unfold decodeHex at hx
        rw [if_pos ((isAscii_iff _).2 ha)] at hx
        split at hx <;> cases hx
        rfl

/-- Which words give no opcode, and why. -/
theorem getOpcode_error_iff (w : Text) (e : Err) : Script.getOpcode w = .error e ↔
    ((∀ op, ¬ NameOf w op) ∧ ¬ DigitText w ∧ e = .scrUnknownOpcodeName) ∨ NotNumber w e ∨
    (∃ n, Numeral w n ∧ ¬ (1 ≤ n ∧ n ≤ 75) ∧ e = .opInvalidConstPushLength) := by
  by_cases hn : ∃ op, NameOf w op
  · obtain ⟨op, hn⟩ := hn
    rw [(getOpcode_iff w op).2 (.inl hn)]
    simp only [reduceCtorEq, false_iff, not_or]
    refine ⟨fun h => h.1 op hn, fun h => ?_, fun ⟨n, h, _⟩ => digits_not_name (numeral_digitText h) op hn⟩
    exact digits_not_name ((isDigitText_iff w).1 (intOfDigits_notNumber h).1) op hn
  · have hno : ∀ op, ¬ NameOf w op := fun op h => hn ⟨op, h⟩
    unfold Script.getOpcode
    rw [C68_unknown w hno]
    simp only
    by_cases hd : isDigitText w = true
    · rw [if_pos hd]
      have hdt := (isDigitText_iff w).1 hd
      cases hi : intOfDigits w with
      | error e' =>
        simp only [Except.error.injEq]
        constructor
        · rintro rfl
          exact .inr (.inl (notNumber_of hd hi))
        · rintro (h | h | ⟨n, h, -⟩)
          · exact absurd hdt h.2.1
          · have := (intOfDigits_notNumber h).2
            rw [hi] at this
            injection this
          · have := ((numeral_iff w n).2 h).2
            rw [hi] at this
            cases this
      | ok n =>
        have hnum := (numeral_iff w n).1 ⟨hd, hi⟩
        simp only
        unfold Opcode.constPushFor
        constructor
        · intro h
          split at h
          · next hr =>
            cases h
            exact .inr (.inr ⟨n, hnum, by omega, rfl⟩)
          · next hr =>
            unfold Opcode.make at h
            rw [if_neg (by omega)] at h
            cases h
        · rintro (h | h | ⟨m, h, hr, rfl⟩)
          · exact absurd hdt h.2.1
          · have := (intOfDigits_notNumber h).2
            rw [hi] at this
            cases this
          · have := ((numeral_iff w m).2 h).2
            rw [hi] at this
            injection this with this
            rw [if_pos (by omega)]
    · rw [if_neg hd]
      have hdt : ¬ DigitText w := fun h => hd ((isDigitText_iff w).2 h)
      simp only [Except.error.injEq]
      constructor
      · rintro rfl
        exact .inl ⟨hno, hdt, rfl⟩
      · rintro (h | h | ⟨n, h, -⟩)
        · exact h.2.2.symm
        · exact absurd (intOfDigits_notNumber h).1 hd
        · exact absurd (numeral_digitText h) hdt

/-- The opcode of a number from 1 to 75. -/
theorem getOpcode_numeral {w : Text} {n : Nat} (h : Numeral w n) (hr : 1 ≤ n ∧ n ≤ 75) :
    ∃ op : Byte, op.val = n ∧ pushKind op = .direct n ∧ (Opcode.mk op).isConstPush = true ∧
      Script.getOpcode w = .ok ⟨op⟩ := by
  have hc : (Opcode.mk ⟨n, by omega⟩).isConstPush = true := by
    simp only [Opcode.isConstPush, Bool.and_eq_true, decide_eq_true_eq]
    exact hr
  refine ⟨⟨n, by omega⟩, rfl, (pushKind_const _).1 hc, hc, (getOpcode_iff _ _).2 (.inr ⟨(pushKind_const _).1 hc, h⟩)⟩

theorem readTokens_refused {ts : List Text} {e : Err} (h : Refused ts e) : Script.readTokens ts = .error e := by
  induction h with
  | later hw _ ih => rw [readTokens_words hw, ih]; rfl
  | unknown h1 h2 =>
    unfold Script.readTokens
    rw [(getOpcode_error_iff _ _).2 (.inl ⟨h1, h2, rfl⟩)]
  | notNumber h =>
    unfold Script.readTokens
    rw [(getOpcode_error_iff _ _).2 (.inr (.inl h))]
  | size h1 h2 =>
    unfold Script.readTokens
    rw [(getOpcode_error_iff _ _).2 (.inr (.inr ⟨_, h1, h2, rfl⟩))]
  | noArgument h1 h2 =>
    obtain ⟨op, -, -, hc, hg⟩ := getOpcode_numeral h1 h2
    unfold Script.readTokens
    simp only [hg]
    rw [if_pos hc]
  | argument h1 h2 h3 =>
    obtain ⟨op, -, -, hc, hg⟩ := getOpcode_numeral h1 h2
    unfold Script.readTokens
    simp only [hg]
    rw [if_pos hc]
    simp only [(pushArgument_error_iff _ _).2 h3]
  | length h1 h2 h3 h4 =>
    obtain ⟨op, -, hk, hc, hg⟩ := getOpcode_numeral h1 h2
    unfold Script.readTokens
    simp only [hg]
    rw [if_pos hc]
    simp only [(pushArgument_iff _ _).2 h3, instr_make, hk]
    rw [if_neg h4]
  | noArguments h1 h2 h3 =>
    have hv := var_counted.2 ⟨_, h2⟩
    unfold Script.readTokens
    simp only [(getOpcode_iff _ _).2 (.inl h1)]
    rw [if_neg (by rw [var_not_const hv]; simp), if_pos hv]
    split
    · simp only [List.length_cons] at h3; omega
    · rfl
  | countedSize h1 h2 h3 =>
    have hv := var_counted.2 ⟨_, h2⟩
    unfold Script.readTokens
    simp only [(getOpcode_iff _ _).2 (.inl h1)]
    rw [if_neg (by rw [var_not_const hv]; simp), if_pos hv, if_pos fun h => h3 ((isDigitText_iff _).1 h)]
  | countedArgument h1 h2 h3 h4 =>
    have hv := var_counted.2 ⟨_, h2⟩
    unfold Script.readTokens
    simp only [(getOpcode_iff _ _).2 (.inl h1)]
    rw [if_neg (by rw [var_not_const hv]; simp), if_pos hv, if_neg (not_not.2 ((isDigitText_iff _).2 h3))]
    simp only [(pushArgument_error_iff _ _).2 h4]
  | countedNumber h1 h2 h3 h4 =>
    have hv := var_counted.2 ⟨_, h2⟩
    obtain ⟨h5, h6⟩ := intOfDigits_notNumber h3
    unfold Script.readTokens
    simp only [(getOpcode_iff _ _).2 (.inl h1)]
    rw [if_neg (by rw [var_not_const hv]; simp), if_pos hv, if_neg (not_not.2 h5)]
    simp only [(pushArgument_iff _ _).2 h4, h6]
  | countedLength h1 h2 h3 h4 h5 =>
    have hv := var_counted.2 ⟨_, h2⟩
    obtain ⟨h6, h7⟩ := (numeral_iff _ _).2 h3
    unfold Script.readTokens
    simp only [(getOpcode_iff _ _).2 (.inl h1)]
    rw [if_neg (by rw [var_not_const hv]; simp), if_pos hv, if_neg (not_not.2 h6)]
    simp only [(pushArgument_iff _ _).2 h4, h7]
    rw [if_pos (Ne.symm h5)]
  | tooLong h1 h2 h3 h4 h5 =>
    have hv := var_counted.2 ⟨_, h2⟩
    obtain ⟨h6, h7⟩ := (numeral_iff _ _).2 h3
    unfold Script.readTokens
    simp only [(getOpcode_iff _ _).2 (.inl h1)]
    rw [if_neg (by rw [var_not_const hv]; simp), if_pos hv, if_neg (not_not.2 h6)]
    simp only [(pushArgument_iff _ _).2 h4, h7, instr_make, h2]
    rw [if_neg (not_not.2 rfl), if_neg (by omega)]

theorem refused_of : ∀ (n : Nat) (ts : List Text) (e : Err), ts.length ≤ n → Script.readTokens ts = .error e →
    Refused ts e := by
  intro n
  induction n with
  | zero =>
    intro ts e hl h
    rw [List.length_eq_zero_iff.1 (Nat.le_zero.1 hl), readTokens_nil] at h
    cases h
  | succ n ih =>
    intro ts e hl h
    have later : ∀ {ws i rest}, Words ws i → ts = ws ++ rest → Refused ts e := by
      rintro ws i rest hw rfl
      rw [readTokens_words hw] at h
      refine .later hw (ih rest e ?_ ?_)
      · have : 0 < ws.length := by cases hw <;> simp
        rw [List.length_append] at hl
        omega
      · cases hr : Script.readTokens rest with
        | ok is => rw [hr] at h; cases h
        | error e' =>
          rw [hr] at h
          injection h with h
          rw [h]
    cases ts with
    | nil => rw [readTokens_nil] at h; cases h
    | cons w ts =>
      cases hg : Script.getOpcode w with
      | error e' =>
        have : e' = e := by
          unfold Script.readTokens at h
          rw [hg] at h
          injection h
        subst this
        rcases (getOpcode_error_iff w e').1 hg with ⟨h1, h2, rfl⟩ | h1 | ⟨m, h1, h2, rfl⟩
        · exact .unknown h1 h2
        · exact .notNumber h1
        · exact .size h1 h2
      | ok o =>
        obtain ⟨op⟩ := o
        unfold Script.readTokens at h
        rw [hg] at h
        simp only at h
        rcases (getOpcode_iff w op).1 hg with hn | ⟨hk, hn⟩
        · rcases pushKind_cases op with hk | hk | ⟨ho, hk⟩ | ⟨ho, hk⟩ | ⟨ho, hk⟩
          · exact later (ws := [w]) (.plain hn hk) rfl
          · exact absurd hk (name_not_direct hn _)
          all_goals
            have hv := var_counted.2 ⟨_, hk⟩
            rw [if_neg (by rw [var_not_const hv]; simp), if_pos hv] at h
            match ts, hl, h, @later with
            | [], _, h, _ =>
              injection h with h
              subst h
              exact .noArguments hn hk (by simp)
            | [_], _, h, _ =>
              injection h with h
              subst h
              exact .noArguments hn hk (by simp)
            | size :: hex :: ts, _, h, later =>
              simp only at h
              by_cases hd : isDigitText size = true
              swap
              · rw [if_pos hd] at h
                injection h with h
                subst h
                exact .countedSize hn hk fun h => hd ((isDigitText_iff _).2 h)
              rw [if_neg (not_not.2 hd)] at h
              cases ha : Script.pushArgument hex with
              | error e' =>
                rw [ha] at h
                injection h with h
                subst h
                exact .countedArgument hn hk ((isDigitText_iff _).1 hd) ((pushArgument_error_iff _ _).1 ha)
              | ok b =>
                have hb := (pushArgument_iff _ _).1 ha
                rw [ha] at h
                simp only at h
                cases hi : intOfDigits size with
                | error e' =>
                  rw [hi] at h
                  injection h with h
                  subst h
                  exact .countedNumber hn hk (notNumber_of hd hi) hb
                | ok m =>
                  have hm := (numeral_iff _ _).1 ⟨hd, hi⟩
                  rw [hi] at h
                  simp only at h
                  by_cases hlen : m = b.length
                  swap
                  · rw [if_pos hlen] at h
                    injection h with h
                    subst h
                    exact .countedLength hn hk hm hb (Ne.symm hlen)
                  subst hlen
                  rw [if_neg (not_not.2 rfl)] at h
                  simp only [instr_make, hk] at h
                  split at h
                  · next e' hx =>
                    split at hx
                    · cases hx
                    · next hlt =>
                      injection hx with hx
                      injection h with h
                      subst h
                      rw [← hx]
                      exact .tooLong hn hk hm hb (not_lt.1 hlt)
                  · next i hx =>
                    split at hx
                    · next hlt => exact later (ws := [w, size, hex]) (.counted hn hk hlt hm hb) rfl
                    · cases hx
        · have hc := (pushKind_const op).2 hk
          have hr : 1 ≤ op.val ∧ op.val ≤ 75 := by
            simpa only [Opcode.isConstPush, Bool.and_eq_true, decide_eq_true_eq] using hc
          rw [if_pos hc] at h
          cases ts with
          | nil =>
            injection h with h
            subst h
            exact .noArgument hn hr
          | cons hex ts =>
            simp only at h
            cases ha : Script.pushArgument hex with
            | error e' =>
              rw [ha] at h
              injection h with h
              subst h
              exact .argument hn hr ((pushArgument_error_iff _ _).1 ha)
            | ok b =>
              have hb := (pushArgument_iff _ _).1 ha
              rw [ha] at h
              simp only [instr_make, hk] at h
              by_cases hlen : b.length = op.val
              · exact later (ws := [w, hex]) (.direct (by rw [hlen]; exact hk) (by rw [hlen]; exact hn) hb) rfl
              · rw [if_neg hlen] at h
                injection h with h
                subst h
                exact .length hn hr hb hlen

theorem intercalate_words {toks : List Text} (hne : toks ≠ []) (hs : ∀ w ∈ toks, ' ' ∉ w) :
    splitSpace ([' '].intercalate toks) = toks := by
  rw [← joinSpace_eq, splitSpace_join _ hne hs]

/-- C108. Exactly when and why a text, cut into words at the spaces, is refused as a script: the first words that do not
spell an instruction say why; if all do, the classifier may trip. -/
theorem C108_refused (toks : List Text) (hne : toks ≠ []) (hs : ∀ w ∈ toks, ' ' ∉ w) (e : Err) :
    Script.fromText ([' '].intercalate toks) = .error e ↔
      Refused toks e ∨ e = .attributeError ∧ ∃ ws, Spelled toks ws ∧ Crashes (shape ws) := by
  unfold Script.fromText
  rw [intercalate_words hne hs]
  cases hr : Script.readTokens toks with
  | error e' =>
    simp only [Except.error.injEq]
    constructor
    · rintro rfl
      exact .inl (refused_of _ _ _ (le_refl _) hr)
    · rintro (h | ⟨-, ws, h, -⟩)
      · have := readTokens_refused h
        rw [hr] at this
        injection this
      · rw [readTokens_spelled h] at hr
        cases hr
  | ok is =>
    obtain ⟨ws, hw, rfl⟩ := readTokens_sound _ _ _ (le_refl _) hr
    simp only [Script.create]
    have := classify_spec (ws.map ofWireStr)
    rw [map_wire_ofWireStr] at this
    rcases this with ⟨h1, h2⟩ | ⟨h1, c, h2, -⟩
    · rw [h2]
      simp only [Except.error.injEq]
      constructor
      · rintro rfl
        exact .inr ⟨rfl, ws, hw, h1⟩
      · rintro (h | h)
        · rw [readTokens_refused h] at hr; cases hr
        · exact h.1.symm
    · rw [h2]
      simp only [reduceCtorEq, false_iff, not_or]
      refine ⟨fun h => ?_, fun ⟨_, ws', hw', hc⟩ => ?_⟩
      · rw [readTokens_refused h] at hr; cases hr
      · rw [readTokens_spelled hw'] at hr
        injection hr with hr
        have := congrArg (List.map Instruction.wire) hr
        rw [map_wire_ofWireStr, map_wire_ofWireStr] at this
        exact h1 (this ▸ hc)

/-- C108. Every list of words spells a script or is refused for exactly one reason. -/
theorem C108_total (toks : List Text) : (∃! ws, Spelled toks ws) ∧ (∀ e, ¬ Refused toks e) ∨
    (∀ ws, ¬ Spelled toks ws) ∧ ∃! e, Refused toks e := by
  cases hr : Script.readTokens toks with
  | error e =>
    refine .inr ⟨fun ws h => ?_, e, refused_of _ _ _ (le_refl _) hr, fun e' h => ?_⟩
    · rw [readTokens_spelled h] at hr; cases hr
    · rw [readTokens_refused h] at hr; injection hr
  | ok is =>
    obtain ⟨ws, hw, rfl⟩ := readTokens_sound _ _ _ (le_refl _) hr
    refine .inl ⟨⟨ws, hw, fun ws' h => ?_⟩, fun e h => ?_⟩
    · rw [readTokens_spelled h] at hr
      injection hr with hr
      have := congrArg (List.map Instruction.wire) hr
      rwa [map_wire_ofWireStr, map_wire_ofWireStr] at this
    · rw [readTokens_refused h] at hr; cases hr

/-- C108. Every text is words between spaces. -/
theorem C108_words (t : Text) : ∃! toks, toks ≠ [] ∧ (∀ w ∈ toks, ' ' ∉ w) ∧ t = [' '].intercalate toks := by
  obtain ⟨h1, h2, h3⟩ := splitSpace_spec t
  refine ⟨splitSpace t, ⟨h1, h2, by rw [← joinSpace_eq, h3]⟩, ?_⟩
  rintro toks ⟨h4, h5, rfl⟩
  exact (intercalate_words h4 h5).symm

/-- C88 is false of the code: a superscript instead of a size raises ValueError, a circled digit UnicodeEncodeError; neither is an exception
of the library. -/
theorem C88_digits_refuted (rest : List Text) (hs : ∀ w ∈ rest, ' ' ∉ w) :
    Script.fromText ([' '].intercalate ("²".toList :: rest)) = .error .valueError ∧
    Script.fromText ([' '].intercalate ("①".toList :: rest)) = .error .unicodeEncodeError := by
  refine ⟨(C108_refused _ (by simp) (by simpa using hs) _).2 (.inl (.notNumber (.value ⟨by decide, ?_⟩ ?_ ?_))),
    (C108_refused _ (by simp) (by simpa using hs) _).2 (.inl (.notNumber (.unencodable ⟨by decide, ?_⟩ ?_)))⟩
  · intro c hc
    exact .inr ((by unfold OtherDigit; decide : ∀ c ∈ "²".toList, OtherDigit c) c hc)
  · exact ⟨'²', by decide, by unfold OtherDigit; decide⟩
  · intro c hc _
    exact (by decide : ∀ c ∈ "²".toList, c.toNat < 256) c hc
  · intro c hc
    exact .inr ((by unfold OtherDigit; decide : ∀ c ∈ "①".toList, OtherDigit c) c hc)
  · exact ⟨'①', by decide, by unfold OtherDigit; decide, by decide⟩

/-- The number of bytes in Arabic-Indic digits. -/
example : Words ["٣".toList, "0x010203".toList] (3, some [1, 2, 3]) :=
  .direct (by decide) ⟨by decide, [3], .cons (.inl ⟨by decide, 0x660, by decide, by decide⟩) .nil, by decide⟩
    ⟨"010203".toList, by decide, by decide, by decide +kernel⟩

example : Refused ["OP_DUP".toList, "2".toList, "0x010203".toList] .insInvalidDataLength :=
  .later (ws := [_]) (i := (118, none)) (.plain ⟨"OP_DUP", by decide, rfl, by decide⟩ (by decide))
    (.length (n := 2) (b := [1, 2, 3]) (numeral_ascii (t := "2".toList) (by decide) (by unfold Digits; decide))
      (by decide) ⟨"010203".toList, by decide, by decide, by decide +kernel⟩ (by decide))

end Bitforge
