import Verif.Proofs.Script
import Verif.Proofs.Unicode

/-! Helper lemmas on the text form of scripts. -/

namespace Bitforge
open Spec

theorem name_table : ∀ b : Byte, (match (Opcode.mk b).name with
    | .ok t => decide (Named b ∧ ((Opcode.mk b).isConstPush = true ∨ Opcode.fromName t = .ok ⟨b⟩) ∧ ' ' ∉ t)
    | .error e => decide (¬ Named b ∧ e = .keyError)) = true := by
  decide +kernel

theorem name_named (b : Byte) (h : Named b) : ∃ t, (Opcode.mk b).name = .ok t ∧ ' ' ∉ t ∧
    ((Opcode.mk b).isConstPush = false → Opcode.fromName t = .ok ⟨b⟩) := by
  have := name_table b
  cases hn : (Opcode.mk b).name with
  | error e => rw [hn] at this; simp only [decide_eq_true_eq] at this; exact absurd h this.1
  | ok t =>
    rw [hn] at this
    simp only [decide_eq_true_eq] at this
    refine ⟨t, rfl, this.2.2, fun hc => ?_⟩
    rcases this.2.1 with h | h
    · rw [hc] at h; cases h
    · exact h

theorem name_unnamed (b : Byte) (h : ¬ Named b) : (Opcode.mk b).name = .error .keyError := by
  have := name_table b
  cases hn : (Opcode.mk b).name with
  | error e => rw [hn] at this; simp only [decide_eq_true_eq] at this; rw [this.2]
  | ok t => rw [hn] at this; simp only [decide_eq_true_eq] at this; exact absurd this.1 h

/-! ## Decimal numbers -/

theorem hexDigit_digit : ∀ n : Nat, n < 10 → '0' ≤ hexDigit n ∧ hexDigit n ≤ '9' ∧ (hexDigit n).toNat - '0'.toNat = n ∧
    hexDigit n ≠ ' ' := by decide

theorem decText_eq (n : Nat) (h : n ≠ 0) : Opcode.decText n = ((Nat.digits 10 n).map hexDigit).reverse := by
  unfold Opcode.decText fromLong
  rw [if_neg h, fromLongLoop_eq 10 (by decide) hexDigit n n (le_refl _)]
  simp

theorem intOfText_map (ds : List Nat) (h : ∀ d ∈ ds, d < 10) :
    intOfText ((ds.map hexDigit).reverse) = Nat.ofDigits 10 ds := by
  unfold intOfText
  rw [List.foldl_reverse, List.foldr_map]
  induction ds with
  | nil => rfl
  | cons d ds ih =>
    have hd := h d List.mem_cons_self
    simp only [List.foldr_cons, Nat.ofDigits_cons]
    rw [ih fun x hx => h x (List.mem_cons_of_mem _ hx), (hexDigit_digit d hd).2.2.1]
    ring

theorem intOfText_decText (n : Nat) : intOfText (Opcode.decText n) = n := by
  by_cases h : n = 0
  · subst h; rfl
  · rw [decText_eq n h, intOfText_map _ fun d hd => Nat.digits_lt_base (by decide) hd, Nat.ofDigits_digits]

theorem decText_chars (n : Nat) : Opcode.decText n ≠ [] ∧ ∀ c ∈ Opcode.decText n, '0' ≤ c ∧ c ≤ '9' ∧ c ≠ ' ' := by
  by_cases h : n = 0
  · subst h; decide
  · rw [decText_eq n h]
    constructor
    · intro he
      simp only [List.reverse_eq_nil_iff, List.map_eq_nil_iff] at he
      exact h (Nat.digits_eq_nil_iff_eq_zero.1 he)
    · intro c hc
      simp only [List.mem_reverse, List.mem_map] at hc
      obtain ⟨d, hd, rfl⟩ := hc
      have := hexDigit_digit d (Nat.digits_lt_base (by decide) hd)
      exact ⟨this.1, this.2.1, this.2.2.2⟩

theorem decText_digits (n : Nat) : Digits (Opcode.decText n) :=
  fun c hc => ⟨((decText_chars n).2 c hc).1, ((decText_chars n).2 c hc).2.1⟩

theorem isDigitText_decText (n : Nat) : isDigitText (Opcode.decText n) = true :=
  digits_isDigitText (decText_chars n).1 (decText_digits n)

theorem intOfDigits_decText (n : Nat) : intOfDigits (Opcode.decText n) = .ok n := by
  rw [intOfDigits_ascii (decText_digits n), intOfText_decText]

theorem fromName_decText (n : Nat) : Opcode.fromName (Opcode.decText n) = .error .opUnknownName := by
  unfold Opcode.fromName
  rw [if_pos]
  have := decText_chars n
  match h : Opcode.decText n with
  | [] => exact absurd h this.1
  | c :: t =>
    have hc := (this.2 c (by rw [h]; simp)).2.1
    intro hp
    have : c = 'O' := by
      have e : "OP_".toList = ['O', 'P', '_'] := by decide
      rw [e] at hp
      simp only [List.isPrefixOf, Bool.and_eq_true, beq_iff_eq] at hp
      exact hp.1.symm
    subst this
    exact absurd hc (by decide)

/-! ## Tokens -/

theorem splitSpace_token (t : Text) (h : ' ' ∉ t) : splitSpace t = [t] := by
  induction t with
  | nil => rfl
  | cons c t ih =>
    simp only [List.mem_cons, not_or] at h
    simp only [splitSpace]
    rw [if_neg (Ne.symm h.1), ih h.2]

theorem splitSpace_append (t rest : Text) (h : ' ' ∉ t) : splitSpace (t ++ ' ' :: rest) = t :: splitSpace rest := by
  induction t with
  | nil => simp [splitSpace]
  | cons c t ih =>
    simp only [List.mem_cons, not_or] at h
    rw [List.cons_append]
    simp only [splitSpace]
    rw [if_neg (Ne.symm h.1), ih h.2]

theorem splitSpace_join : ∀ (ts : List Text), ts ≠ [] → (∀ t ∈ ts, ' ' ∉ t) → splitSpace (Script.joinSpace ts) = ts
  | [], h, _ => absurd rfl h
  | [t], _, hs => by
    simp only [Script.joinSpace]
    exact splitSpace_token t (hs t (by simp))
  | t :: u :: ts, _, hs => by
    simp only [Script.joinSpace]
    rw [splitSpace_append t _ (hs t (by simp)), splitSpace_join (u :: ts) (by simp) fun x hx => hs x (by simp_all)]

theorem joinSpace_append : ∀ (a b : List Text), a ≠ [] → b ≠ [] →
    Script.joinSpace (a ++ b) = Script.joinSpace a ++ ' ' :: Script.joinSpace b
  | [], _, h, _ => absurd rfl h
  | [t], b, _, hb => by
    cases b with
    | nil => exact absurd rfl hb
    | cons u us => rfl
  | t :: u :: ts, b, _, hb => by
    have := joinSpace_append (u :: ts) b (by simp) hb
    simp only [List.cons_append] at this
    simp only [List.cons_append, Script.joinSpace, this]
    simp

theorem hexDigit_not_space : ∀ n : Nat, n < 16 → hexDigit n ≠ ' ' := by decide

theorem encodeHex_no_space (b : Bytes) : ' ' ∉ encodeHex b := by
  unfold encodeHex
  simp only [List.mem_flatMap, not_exists, not_and]
  intro x _ h
  have hx := x.isLt
  simp only [List.mem_cons, List.not_mem_nil, or_false] at h
  rcases h with h | h
  · exact hexDigit_not_space _ (by omega) h.symm
  · exact hexDigit_not_space _ (by omega) h.symm

/-- The argument token of a push. -/
def hexToken (b : Bytes) : Text := "0x".toList ++ encodeHex b

theorem zx : "0x".toList = ['0', 'x'] := by decide

theorem hexToken_no_space (b : Bytes) : ' ' ∉ hexToken b := by
  unfold hexToken
  rw [zx]
  simp [encodeHex_no_space]

theorem pushArgument_hexToken (b : Bytes) : Script.pushArgument (hexToken b) = .ok b := by
  unfold Script.pushArgument hexToken
  rw [zx, if_neg (by simp [List.isPrefixOf])]
  simp only [List.cons_append, List.nil_append, List.drop_succ_cons, List.drop_zero]
  exact decodeHex_encodeHex b

/-- The instruction with its data as `str`, which is what `from_string` builds. -/
def Instruction.asStr (i : Instruction) : Instruction := ⟨i.opcode, i.data.map fun d => ⟨.str, d.val⟩⟩

theorem asStr_wire (i : Instruction) : i.asStr.wire = i.wire := by
  obtain ⟨o, d⟩ := i
  cases d <;> rfl

theorem readTokens_nil : Script.readTokens [] = .ok [] := by
  unfold Script.readTokens; rfl

/-- Printing an instruction gives tokens that read back as the instruction. -/
theorem toText_tokens (i : Instruction) (hw : Wf i.wire) (hn : Named i.opcode.number) :
    ∃ ts, i.toText = .ok (Script.joinSpace ts) ∧ ts ≠ [] ∧ (∀ t ∈ ts, ' ' ∉ t) ∧
      ∀ rest, Script.readTokens (ts ++ rest) = (Script.readTokens rest).map (i.asStr :: ·) := by
  obtain ⟨⟨op⟩, d⟩ := i
  obtain ⟨nm, hnm, hsp, hfrom⟩ := name_named op hn
  simp only [Instruction.wire] at hw
  cases d with
  | none =>
    simp only [Option.map_none, Wf] at hw
    have hp := (pushKind_plain op).2 hw
    have hp' := hp
    rw [push_split] at hp'
    simp only [Bool.or_eq_false_iff] at hp'
    refine ⟨[nm], ?_, by simp, by simpa using hsp, fun rest => ?_⟩
    · simp only [Instruction.toText]
      rw [hp]
      simp [Script.joinSpace, hnm]
    · rw [List.singleton_append]
      conv_lhs => unfold Script.readTokens
      simp only [Script.getOpcode, hfrom hp'.1]
      rw [if_neg (by rw [hp'.1]; simp), if_neg (by rw [hp'.2]; simp)]
      simp only [instr_make, hw]
      rfl
  | some d =>
    simp only [Option.map_some, Wf] at hw
    rcases hk : pushKind op with n | w | _ <;> simp only [hk] at hw
    · have hd : pushKind op = .direct op.val := by
        rcases pushKind_cases op with h | h | ⟨_, h⟩ | ⟨_, h⟩ | ⟨_, h⟩ <;> rw [hk] at h <;> cases h; exact hk
      have hc := (pushKind_const op).2 hd
      have hno : n = op.val := by rw [hk] at hd; exact PushKind.direct.inj hd
      have hp : (Opcode.mk op).isPush = true := by rw [push_split, hc]; rfl
      refine ⟨[Opcode.decText d.val.length, hexToken d.val], ?_, by simp, ?_, fun rest => ?_⟩
      · simp only [Instruction.toText]
        rw [if_pos hp, if_pos hc]
        rfl
      · intro t ht
        simp only [List.mem_cons, List.not_mem_nil, or_false] at ht
        rcases ht with rfl | rfl
        · exact fun h => ((decText_chars _).2 _ h).2.2 rfl
        · exact hexToken_no_space _
      · have hb : 1 ≤ op.val ∧ op.val ≤ 75 := by
          have := hc; simp only [Opcode.isConstPush, Bool.and_eq_true, decide_eq_true_eq] at this; exact this
        have hlen : d.val.length = op.val := by omega
        have hop : Script.getOpcode (Opcode.decText d.val.length) = .ok ⟨op⟩ := by
          unfold Script.getOpcode
          rw [fromName_decText]
          simp only [isDigitText_decText, if_true, intOfDigits_decText, hlen]
          unfold Opcode.constPushFor
          rw [if_neg (by omega), opcode_make_val]
        simp only [List.cons_append, List.nil_append]
        conv_lhs => unfold Script.readTokens
        simp only [hop]
        rw [if_pos hc]
        simp only [pushArgument_hexToken, instr_make, hk, hw, if_true]
        rfl
    · have hv : (Opcode.mk op).isVarPush = true := by
        rw [pushKind_var]
        rcases pushKind_cases op with h | h | h
        · simp [hk] at h
        · simp [hk] at h
        · exact h
      have hc : (Opcode.mk op).isConstPush = false := by
        by_contra hc
        have := const_not_var op (by simpa using hc)
        rw [this] at hv; cases hv
      have hp : (Opcode.mk op).isPush = true := by rw [push_split, hv]; simp
      refine ⟨[nm, Opcode.decText d.val.length, hexToken d.val], ?_, by simp, ?_, fun rest => ?_⟩
      · simp only [Instruction.toText]
        rw [if_pos hp, if_neg (by rw [hc]; simp)]
        simp only [hnm]
        rfl
      · intro t ht
        simp only [List.mem_cons, List.not_mem_nil, or_false] at ht
        rcases ht with rfl | rfl | rfl
        · exact hsp
        · exact fun h => ((decText_chars _).2 _ h).2.2 rfl
        · exact hexToken_no_space _
      · simp only [List.cons_append, List.nil_append]
        conv_lhs => unfold Script.readTokens
        simp only [Script.getOpcode, hfrom hc]
        rw [if_neg (by rw [hc]; simp), if_pos hv]
        simp only [isDigitText_decText, not_true, if_false, pushArgument_hexToken, intOfDigits_decText, ne_eq,
          instr_make, hk, hw, if_true]
        rfl

theorem mapM_toText (is : List Instruction) (hw : ∀ i ∈ is, Wf i.wire) (hn : ∀ i ∈ is, Named i.opcode.number)
    (hne : is ≠ []) : ∃ ts, (is.mapM Instruction.toText).map Script.joinSpace = .ok (Script.joinSpace ts) ∧ ts ≠ [] ∧
      (∀ t ∈ ts, ' ' ∉ t) ∧ Script.readTokens ts = .ok (is.map Instruction.asStr) := by
  induction is with
  | nil => exact absurd rfl hne
  | cons i is ih =>
    obtain ⟨ts, h1, h2, h3, h4⟩ := toText_tokens i (hw i (by simp)) (hn i (by simp))
    by_cases hnil : is = []
    · subst hnil
      refine ⟨ts, ?_, h2, h3, ?_⟩
      · simp only [List.mapM_cons, List.mapM_nil, h1]
        rfl
      · have := h4 []
        rw [List.append_nil, readTokens_nil] at this
        rw [this]; rfl
    · obtain ⟨us, g1, g2, g3, g4⟩ := ih (fun j hj => hw j (by simp [hj])) (fun j hj => hn j (by simp [hj])) hnil
      refine ⟨ts ++ us, ?_, by simp [h2], ?_, ?_⟩
      · rw [joinSpace_append ts us h2 g2]
        cases hm : is.mapM Instruction.toText with
        | error e => rw [hm] at g1; cases g1
        | ok l =>
          rw [hm] at g1
          have g1' : Script.joinSpace l = Script.joinSpace us := Except.ok.inj g1
          have hl : l ≠ [] := by
            rintro rfl
            cases is with
            | nil => exact hnil rfl
            | cons a as =>
              rw [List.mapM_cons] at hm
              cases ha : a.toText with
              | error e => rw [ha] at hm; cases hm
              | ok x =>
                rw [ha] at hm
                cases hb : as.mapM Instruction.toText with
                | error e => rw [hb] at hm; cases hm
                | ok y => rw [hb] at hm; cases hm
          rw [List.mapM_cons, h1, hm]
          show Except.ok (Script.joinSpace (Script.joinSpace ts :: l)) = _
          rw [← g1']
          cases l with
          | nil => exact absurd rfl hl
          | cons x xs => rfl
      · intro t ht
        rcases List.mem_append.1 ht with h | h
        · exact h3 t h
        · exact g3 t h
      · rw [h4, g4]; rfl

theorem mapM_toText_unnamed (is : List Instruction) (hw : ∀ i ∈ is, Wf i.wire)
    (hn : ∃ i ∈ is, ¬ Named i.opcode.number) : is.mapM Instruction.toText = .error .keyError := by
  induction is with
  | nil => simp at hn
  | cons i is ih =>
    rw [List.mapM_cons]
    by_cases h : Named i.opcode.number
    · obtain ⟨ts, h1, _⟩ := toText_tokens i (hw i (by simp)) h
      rw [h1]
      obtain ⟨j, hj, hjn⟩ := hn
      rcases List.mem_cons.1 hj with rfl | hj
      · exact absurd h hjn
      · show (is.mapM Instruction.toText >>= fun _ => _) = _
        rw [ih (fun k hk => hw k (by simp [hk])) ⟨j, hj, hjn⟩]; rfl
    · have : i.toText = .error .keyError := by
        obtain ⟨⟨op⟩, d⟩ := i
        have hk : pushKind op = .plain := by
          have hb : op.val > 97 := by
            by_contra hc; exact h (.inl (Nat.le_of_not_lt hc))
          unfold pushKind
          rw [if_neg (by omega), if_neg (by omega), if_neg (by omega), if_neg (by omega), if_neg (by omega)]
        simp only [Instruction.toText]
        rw [(pushKind_plain op).2 hk]
        simpa using name_unnamed op h
      rw [this]; rfl

end Bitforge
