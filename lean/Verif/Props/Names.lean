import Verif.Spec.Names
import Verif.Props.Script
import Verif.Proofs.Tx
import Verif.Proofs.FloatText

/-! # C68: opcode names; C31: which texts are scripts -/

namespace Bitforge
open Spec

/-- C05. `encode_hex` writes two lower-case digits per byte. -/
theorem C05_encode (b : Bytes) : encodeHex b = hexText b := (hexText_eq b).symm

example : hexText [10, 255] = "0aff".toList := by decide

/-! ## C68 names -/

theorem table_sound : ∀ e ∈ opcodeTable, e ∈ opcodeNames ∧ e.1 ∉ forbiddenNames ∧ e.2 < 256 ∧
    "OP_".toList.isPrefixOf e.1.toList = true := by decide +kernel

theorem table_complete : ∀ e ∈ opcodeNames, e.1 ∉ forbiddenNames →
    (opcodeTable.find? fun x => x.1.toList = e.1.toList) = some e := by decide +kernel

/-- C68. `Opcode.from_name` accepts exactly the names of the opcodes and gives the opcode. -/
theorem C68_from_name (name : Text) (o : Opcode) : Opcode.fromName name = .ok o ↔ NameOf name o.number := by
  unfold Opcode.fromName
  constructor
  · intro h
    split at h
    · cases h
    cases hf : opcodeTable.find? (fun e => e.1.toList = name) with
    | none => rw [hf] at h; cases h
    | some e =>
      rw [hf] at h
      obtain ⟨s, n⟩ := e
      injection h with h
      have hm := List.mem_of_find?_eq_some hf
      have hp := List.find?_some hf
      simp only [decide_eq_true_eq] at hp
      obtain ⟨h1, h2, h3, -⟩ := table_sound _ hm
      refine ⟨s, h2, hp.symm, ?_⟩
      rw [← h]
      simp only [Opcode.num, Fin.ofNat]
      rw [Nat.mod_eq_of_lt h3]
      exact h1
  · rintro ⟨s, h1, rfl, h2⟩
    have hf := table_complete _ h2 h1
    have hm := List.mem_of_find?_eq_some hf
    rw [if_neg (by simp only [not_not]; exact (table_sound _ hm).2.2.2)]
    simp only at hf
    rw [hf]
    simp only
    rw [opcode_num_val]

/-- C68. Any other text is refused. -/
theorem C68_unknown (name : Text) (h : ∀ op, ¬ NameOf name op) : Opcode.fromName name = .error .opUnknownName := by
  cases hf : Opcode.fromName name with
  | ok o => exact absurd ((C68_from_name name o).1 hf) (h _)
  | error e =>
    unfold Opcode.fromName at hf
    split at hf
    · injection hf with hf; rw [← hf]
    · split at hf
      · cases hf
      · injection hf with hf; rw [← hf]

theorem digits_char (c : Char) : ('0' ≤ c ∧ c ≤ '9') ↔ ('0'.toNat ≤ c.toNat ∧ c.toNat ≤ '9'.toNat) := Iff.rfl

theorem intOfText_eq (t : Text) : intOfText t = digitsValue t := by
  rw [← decValue_eq]
  unfold intOfText decValue
  congr 1
  funext n c
  rw [mul_comm]
  rfl

theorem decimal_decText (n : Nat) : Decimal (Opcode.decText n) n := by
  obtain ⟨h1, h2⟩ := decText_chars n
  refine ⟨h1, fun c hc => (digits_char c).1 ⟨(h2 c hc).1, (h2 c hc).2.1⟩, by rw [← intOfText_eq, intOfText_decText], ?_⟩
  by_cases hn : n = 0
  · subst hn; exact fun _ => rfl
  · intro h
    rw [decText_eq n hn, List.head?_reverse, List.getLast?_map, Option.map_eq_some_iff] at h
    obtain ⟨d, hd, h0⟩ := h
    have hm := List.mem_of_getLast? hd
    have h9 := Nat.digits_lt_base (by decide : 1 < 10) hm
    have hz : d = 0 := by
      have : ∀ d < 10, hexDigit d = '0' → d = 0 := by decide
      exact this d h9 h0
    subst hz
    rw [List.getLast?_eq_some_getLast (Nat.digits_ne_nil_iff_ne_zero.2 hn)] at hd
    exact absurd (Option.some.inj hd) (Nat.getLast_digit_ne_zero 10 hn)

theorem name_synonyms : ∀ b : Byte, (Opcode.mk b).isConstPush = true ∨ ((Opcode.mk b).name ≠ .ok "OP_FALSE".toList ∧
    (Opcode.mk b).name ≠ .ok "OP_TRUE".toList) := by decide +kernel

/-- C68. The name of an opcode without data is a name for it, and is `OP_0` and `OP_1` where there are two; opcodes
of direct pushes have names of their own. -/
theorem C68_name (op : Byte) (t : Text) (h : (Opcode.mk op).name = .ok t) :
    (∀ n, pushKind op ≠ .direct n) ∧ NameOf t op ∧ t ≠ "OP_FALSE".toList ∧ t ≠ "OP_TRUE".toList ∨
    pushKind op = .direct op.val ∧ ∃ d, Decimal d op.val ∧ t = "_PUSH_".toList ++ d ++ "_BYTES".toList := by
  by_cases hc : (Opcode.mk op).isConstPush = true
  · right
    refine ⟨(pushKind_const op).1 hc, Opcode.decText op.val, decimal_decText _, ?_⟩
    unfold Opcode.name at h
    rw [if_pos hc] at h
    injection h with h
    exact h.symm
  · left
    refine ⟨?_, ?_, ?_, ?_⟩
    · intro n hn
      apply hc
      rw [pushKind_const]
      rcases pushKind_cases op with h | h | ⟨_, h⟩ | ⟨_, h⟩ | ⟨_, h⟩
      · rw [hn] at h; cases h
      · exact h
      all_goals rw [hn] at h; cases h
    · unfold Opcode.name at h
      rw [if_neg hc] at h
      unfold Opcode.numberToName at h
      cases hf : opcodeTable.find? (fun e => e.2 = op.val) with
      | none => rw [hf] at h; cases h
      | some e =>
        rw [hf] at h
        injection h with h
        have hm := List.mem_of_find?_eq_some hf
        have hp := List.find?_some hf
        simp only [decide_eq_true_eq] at hp
        obtain ⟨h1, h2, -, -⟩ := table_sound _ hm
        exact ⟨e.1, h2, h.symm, by rw [← hp]; exact h1⟩
    · rintro rfl
      exact ((name_synonyms op).resolve_left hc).1 h
    · rintro rfl
      exact ((name_synonyms op).resolve_left hc).2 h

/-- C68. Which opcodes have a name. -/
theorem C68_named (op : Byte) : (∃ t, (Opcode.mk op).name = .ok t) ↔
    1 ≤ op.val ∧ op.val ≤ 75 ∨ ∃ t, NameOf t op := by
  constructor
  · rintro ⟨t, h⟩
    rcases C68_name op t h with ⟨-, h, -⟩ | ⟨h, -⟩
    · exact .inr ⟨t, h⟩
    · have := (pushKind_const op).2 h
      simp only [Opcode.isConstPush, Bool.and_eq_true, decide_eq_true_eq] at this
      exact .inl this
  · rintro (h | ⟨t, s, h1, rfl, h2⟩)
    · refine ⟨_, if_pos ?_⟩
      simpa [Opcode.isConstPush] using h
    · have hm := List.mem_of_find?_eq_some (table_complete _ h2 h1)
      unfold Opcode.name
      split
      · exact ⟨_, rfl⟩
      unfold Opcode.numberToName
      cases hf : opcodeTable.find? (fun e => e.2 = op.val) with
      | none =>
        rw [List.find?_eq_none] at hf
        exact absurd (hf _ hm) (by simp)
      | some e => exact ⟨_, rfl⟩

example : NameOf "OP_CHECKSIG".toList 172 := ⟨"OP_CHECKSIG", by decide, rfl, by decide⟩

/-! ## C31 reading -/

theorem hexChars_eq (c : Char) : c ∈ hexChars ↔ c ∈ "0123456789abcdefABCDEF".toList := by
  have : hexChars = "0123456789abcdefABCDEF".toList := by decide
  rw [this]

theorem pushArgument_iff (t : Text) (b : Bytes) : Script.pushArgument t = .ok b ↔ HexBytes t b := by
  unfold Script.pushArgument HexBytes
  constructor
  · intro h
    split at h
    · cases h
    next hp =>
      rw [not_not, zx, List.isPrefixOf_iff_prefix] at hp
      obtain ⟨h', rfl⟩ := hp
      rw [show (['0', 'x'] ++ h').drop 2 = h' from rfl, decodeHex_iff] at h
      exact ⟨h', rfl, fun c hc => (hexChars_eq c).1 (h.1 c hc), by rw [← h.2, hexText_eq]⟩
  · rintro ⟨h', rfl, h1, h2⟩
    rw [if_neg (by rw [zx]; simp [List.isPrefixOf]), show ('0' :: 'x' :: h').drop 2 = h' from rfl, decodeHex_iff]
    exact ⟨fun c hc => (hexChars_eq c).2 (h1 c hc), by rw [h2, hexText_eq]⟩

/-- The instruction that `from_string` makes. -/
def ofWireStr (w : WireInstr) : Instruction := ⟨⟨w.1⟩, w.2.map fun d => ⟨.str, d⟩⟩

theorem wire_ofWireStr (w : WireInstr) : (ofWireStr w).wire = w := by
  obtain ⟨op, d⟩ := w
  cases d <;> rfl

/-- Which words give an opcode. -/
theorem getOpcode_iff (token : Text) (op : Byte) : Script.getOpcode token = .ok ⟨op⟩ ↔
    NameOf token op ∨ pushKind op = .direct op.val ∧ Numeral token op.val := by
  unfold Script.getOpcode
  constructor
  · intro h
    cases hf : Opcode.fromName token with
    | ok o =>
      rw [hf] at h
      injection h with h
      left
      have := (C68_from_name token o).1 hf
      rwa [h] at this
    | error e =>
      rw [hf] at h
      simp only at h
      split at h
      · next hd =>
        right
        cases hi : intOfDigits token with
        | error e => rw [hi] at h; cases h
        | ok n =>
        rw [hi] at h
        simp only at h
        unfold Opcode.constPushFor at h
        split at h
        · cases h
        next hr =>
        unfold Opcode.make at h
        rw [if_neg (by omega)] at h
        injection h with h
        have hv : op.val = n := by
          have := congrArg (fun o : Opcode => o.number.val) h
          simp only [Opcode.num, Fin.ofNat, Int.toNat_natCast] at this
          rw [← this, Nat.mod_eq_of_lt (by omega)]
        refine ⟨?_, hv ▸ (numeral_iff token n).1 ⟨hd, hi⟩⟩
        rw [← pushKind_const]
        simp only [Opcode.isConstPush, Bool.and_eq_true, decide_eq_true_eq]
        omega
      · cases h
  · rintro (h | ⟨h, hd⟩)
    · rw [(C68_from_name token ⟨op⟩).2 h]
    · have hno : ∀ op', ¬ NameOf token op' := by
        rintro op' ⟨s, hs, rfl, hm⟩
        have hpre := (table_sound _ (List.mem_of_find?_eq_some (table_complete _ hm hs))).2.2.2
        have e : "OP_".toList = ['O', 'P', '_'] := by decide
        rw [e, List.isPrefixOf_iff_prefix] at hpre
        obtain ⟨r, hr⟩ := hpre
        obtain ⟨-, ds, hds, -⟩ := hd
        rw [← hr] at hds
        cases hds with
        | cons h1 _ =>
          have := (decimalValue_iff _ _).2 h1
          rw [show decimalValue 'O' = none by decide] at this
          cases this
      rw [C68_unknown token hno]
      simp only
      obtain ⟨h1, h2⟩ := (numeral_iff _ _).2 hd
      rw [if_pos h1, h2]
      simp only
      have := (pushKind_const op).2 h
      simp only [Opcode.isConstPush, Bool.and_eq_true, decide_eq_true_eq] at this
      unfold Opcode.constPushFor
      rw [if_neg (by omega), opcode_make_val]

theorem name_not_direct {name : Text} {op : Byte} (h : NameOf name op) (n : Nat) : pushKind op ≠ .direct n := by
  obtain ⟨s, -, -, hm⟩ := h
  have : ∀ e ∈ opcodeNames, ¬ (1 ≤ e.2 ∧ e.2 ≤ 75) := by decide +kernel
  have hv := this _ hm
  intro hn
  have : pushKind op = .direct op.val := by
    rcases pushKind_cases op with h | h | ⟨_, h⟩ | ⟨_, h⟩ | ⟨_, h⟩ <;> rw [hn] at h <;> cases h
    exact hn
  have := (pushKind_const op).2 this
  simp only [Opcode.isConstPush, Bool.and_eq_true, decide_eq_true_eq] at this
  exact hv this

theorem var_counted {op : Byte} : (Opcode.mk op).isVarPush = true ↔ ∃ w, pushKind op = .counted w := by
  rw [pushKind_var]
  constructor
  · rintro (⟨-, h⟩ | ⟨-, h⟩ | ⟨-, h⟩) <;> exact ⟨_, h⟩
  · rintro ⟨w, h⟩
    rcases pushKind_cases op with h' | h' | h'
    · rw [h] at h'; cases h'
    · rw [h] at h'; cases h'
    · exact h'

theorem map_cons_ok {α : Type} {e : Except Err (List α)} {i : α} {is : List α} (h : e.map (i :: ·) = .ok is) :
    ∃ is', e = .ok is' ∧ is = i :: is' := by
  cases e with
  | error e => cases h
  | ok is' => injection h with h; exact ⟨is', rfl, h.symm⟩

/-- What the loop of `from_string` accepts is spelled by the words. -/
theorem readTokens_sound : ∀ (n : Nat) (toks : List Text) (is : List Instruction), toks.length ≤ n →
    Script.readTokens toks = .ok is → ∃ ws, Spelled toks ws ∧ is = ws.map ofWireStr := by
  intro n
  induction n with
  | zero =>
    intro toks is hl h
    rw [List.length_eq_zero_iff.1 (Nat.le_zero.1 hl)] at h ⊢
    rw [readTokens_nil] at h
    injection h with h
    exact ⟨[], .nil, h.symm⟩
  | succ n ih =>
    intro toks is hl h
    cases toks with
    | nil =>
      rw [readTokens_nil] at h
      injection h with h
      exact ⟨[], .nil, h.symm⟩
    | cons token toks =>
      simp only [List.length_cons] at hl
      unfold Script.readTokens at h
      cases hop : Script.getOpcode token with
      | error e => rw [hop] at h; cases h
      | ok o =>
        obtain ⟨op⟩ := o
        rw [hop] at h
        simp only at h
        have hg := (getOpcode_iff token op).1 hop
        split at h
        · next hc =>
          have hk := (pushKind_const op).1 hc
          cases toks with
          | nil => cases h
          | cons hex toks =>
            simp only at h
            cases ha : Script.pushArgument hex with
            | error e => rw [ha] at h; cases h
            | ok b =>
              rw [ha] at h
              simp only at h
              cases hi : Instruction.make ⟨op⟩ (some ⟨.str, b⟩) with
              | error e => rw [hi] at h; cases h
              | ok i =>
                rw [hi] at h
                obtain ⟨rfl, hw⟩ := (instr_make_ok_iff _ _ _).1 hi
                obtain ⟨is', h1, rfl⟩ := map_cons_ok h
                obtain ⟨ws, h2, rfl⟩ := ih toks is' (by simp only [List.length_cons] at hl; omega) h1
                simp only [Instruction.wire, Option.map_some, Wf, hk] at hw
                refine ⟨(op, some b) :: ws, .cons (ws := [token, hex]) (.direct (by rw [hw]; exact hk) ?_
                  ((pushArgument_iff hex b).1 ha)) h2, rfl⟩
                rcases hg with hg | hg
                · exact absurd hk (name_not_direct hg _)
                · rw [hw]; exact hg.2
        · next hc =>
          have hname : NameOf token op := by
            rcases hg with hg | hg
            · exact hg
            · exact absurd ((pushKind_const op).2 hg.1) hc
          split at h
          · next hv =>
            obtain ⟨w, hk⟩ := var_counted.1 hv
            cases toks with
            | nil => cases h
            | cons size toks =>
              cases toks with
              | nil => cases h
              | cons hex toks =>
                simp only at h
                split at h
                · cases h
                next hd =>
                rw [not_not] at hd
                cases ha : Script.pushArgument hex with
                | error e => rw [ha] at h; cases h
                | ok b =>
                  rw [ha] at h
                  simp only at h
                  cases hz : intOfDigits size with
                  | error e => rw [hz] at h; cases h
                  | ok n =>
                  rw [hz] at h
                  simp only at h
                  split at h
                  · cases h
                  next hlen =>
                  rw [not_not] at hlen
                  cases hi : Instruction.make ⟨op⟩ (some ⟨.str, b⟩) with
                  | error e => rw [hi] at h; cases h
                  | ok i =>
                    rw [hi] at h
                    obtain ⟨rfl, hw⟩ := (instr_make_ok_iff _ _ _).1 hi
                    obtain ⟨is', h1, rfl⟩ := map_cons_ok h
                    obtain ⟨ws, h2, rfl⟩ := ih toks is' (by simp only [List.length_cons] at hl; omega) h1
                    simp only [Instruction.wire, Option.map_some, Wf, hk] at hw
                    exact ⟨(op, some b) :: ws, .cons (ws := [token, size, hex]) (.counted hname hk hw
                      (hlen ▸ (numeral_iff size n).1 ⟨hd, hz⟩) ((pushArgument_iff hex b).1 ha)) h2, rfl⟩
          · next hv =>
            cases hi : Instruction.make ⟨op⟩ with
            | error e => rw [hi] at h; cases h
            | ok i =>
              rw [hi] at h
              obtain ⟨rfl, hw⟩ := (instr_make_ok_iff _ _ _).1 hi
              obtain ⟨is', h1, rfl⟩ := map_cons_ok h
              obtain ⟨ws, h2, rfl⟩ := ih toks is' (by omega) h1
              exact ⟨(op, none) :: ws, .cons (ws := [token]) (.plain hname hw) h2, rfl⟩

/-- Words for an instruction are read as that instruction. -/
theorem readTokens_words {ws : List Text} {i : WireInstr} (h : Words ws i) (rest : List Text) :
    Script.readTokens (ws ++ rest) = (Script.readTokens rest).map (ofWireStr i :: ·) := by
  cases h with
  | @plain name op hn hk =>
    have hop := (getOpcode_iff name op).2 (.inl hn)
    have hp := (pushKind_plain op).2 hk
    rw [push_split, Bool.or_eq_false_iff] at hp
    rw [List.singleton_append]
    conv_lhs => unfold Script.readTokens
    simp only [hop]
    rw [if_neg (by rw [hp.1]; simp), if_neg (by rw [hp.2]; simp)]
    simp only [instr_make, hk]
    rfl
  | @direct size hex op b hk hd hh =>
    have hk' : pushKind op = .direct op.val ∧ op.val = b.length := by
      rcases pushKind_cases op with h | h | ⟨_, h⟩ | ⟨_, h⟩ | ⟨_, h⟩ <;> rw [hk] at h
      · cases h
      · injection h with h
        exact ⟨by rw [hk, h], h.symm⟩
      all_goals cases h
    have hop := (getOpcode_iff size op).2 (.inr ⟨hk'.1, by rw [hk'.2]; exact hd⟩)
    simp only [List.cons_append, List.nil_append]
    conv_lhs => unfold Script.readTokens
    simp only [hop]
    rw [if_pos ((pushKind_const op).2 hk'.1)]
    simp only [(pushArgument_iff hex b).2 hh, instr_make, hk, if_true]
    rfl
  | @counted name size hex op b w hn hk hb hd hh =>
    have hop := (getOpcode_iff name op).2 (.inl hn)
    have hv := var_counted.2 ⟨w, hk⟩
    have hc : (Opcode.mk op).isConstPush = false := by
      by_contra hc
      have := const_not_var op (by simpa using hc)
      rw [this] at hv; cases hv
    simp only [List.cons_append, List.nil_append]
    conv_lhs => unfold Script.readTokens
    simp only [hop]
    obtain ⟨h1, h2⟩ := (numeral_iff _ _).2 hd
    rw [if_neg (by rw [hc]; simp), if_pos hv, if_neg (not_not.2 h1)]
    simp only [(pushArgument_iff hex b).2 hh, h2]
    rw [if_neg (not_not.2 rfl)]
    simp only [instr_make, hk, hb, if_true]
    rfl

theorem readTokens_spelled {toks : List Text} {ws : List WireInstr} (h : Spelled toks ws) :
    Script.readTokens toks = .ok (ws.map ofWireStr) := by
  induction h with
  | nil => rw [readTokens_nil]; rfl
  | cons hw _ ih => rw [readTokens_words hw, ih]; rfl

theorem joinSpace_eq : ∀ ts : List Text, Script.joinSpace ts = [' '].intercalate ts
  | [] => rfl
  | [t] => by simp [Script.joinSpace]
  | t :: u :: ts => by
    simp only [Script.joinSpace, joinSpace_eq (u :: ts)]
    simp [List.intercalate, List.intersperse]

/-- Splitting at spaces. -/
theorem splitSpace_spec (t : Text) : splitSpace t ≠ [] ∧ (∀ w ∈ splitSpace t, ' ' ∉ w) ∧
    Script.joinSpace (splitSpace t) = t := by
  induction t with
  | nil => simp [splitSpace, Script.joinSpace]
  | cons c t ih =>
    obtain ⟨h1, h2, h3⟩ := ih
    unfold splitSpace
    cases hs : splitSpace t with
    | nil => exact absurd hs h1
    | cons w ws =>
      rw [hs] at h2 h3
      split
      · next hc =>
        subst hc
        refine ⟨by simp, ?_, ?_⟩
        · intro x hx
          rcases List.mem_cons.1 hx with rfl | hx
          · simp
          · exact h2 x hx
        · simp only [Script.joinSpace, h3, List.nil_append]
      · next hc =>
        refine ⟨by simp, ?_, ?_⟩
        · intro x hx
          rcases List.mem_cons.1 hx with rfl | hx
          · simp only [List.mem_cons, not_or]
            exact ⟨Ne.symm hc, h2 w (by simp)⟩
          · exact h2 x (by simp [hx])
        · rw [← h3]
          cases ws <;> simp [Script.joinSpace]

theorem name_no_space {name : Text} {op : Byte} (h : NameOf name op) : ' ' ∉ name := by
  obtain ⟨s, -, rfl, hm⟩ := h
  have : ∀ e ∈ opcodeNames, ' ' ∉ e.1.toList := by decide +kernel
  exact this _ hm

theorem numeral_no_space {t : Text} {n : Nat} (h : Numeral t n) : ' ' ∉ t := fun hc => by
  have h1 := ((numeral_iff t n).2 h).1
  unfold isDigitText at h1
  simp only [decide_eq_true_eq, List.all_eq_true] at h1
  exact absurd (h1.2 _ hc) (by decide)

theorem hex_no_space {t : Text} {b : Bytes} (h : HexBytes t b) : ' ' ∉ t := by
  obtain ⟨h', rfl, h1, -⟩ := h
  simp only [List.mem_cons, not_or]
  exact ⟨by decide, by decide, fun hc => absurd (h1 _ hc) (by decide)⟩

theorem spelled_no_space {toks : List Text} {ws : List WireInstr} (h : Spelled toks ws) : ∀ t ∈ toks, ' ' ∉ t := by
  induction h with
  | nil => simp
  | cons hw _ ih =>
    intro t ht
    rcases List.mem_append.1 ht with ht | ht
    · cases hw with
      | plain hn _ =>
        simp only [List.mem_singleton] at ht
        subst ht
        exact name_no_space hn
      | direct _ hd hh =>
        simp only [List.mem_cons, List.not_mem_nil, or_false] at ht
        rcases ht with rfl | rfl
        · exact numeral_no_space hd
        · exact hex_no_space hh
      | counted hn _ _ hd hh =>
        simp only [List.mem_cons, List.not_mem_nil, or_false] at ht
        rcases ht with rfl | rfl | rfl
        · exact name_no_space hn
        · exact numeral_no_space hd
        · exact hex_no_space hh
    · exact ih t ht

theorem spelled_ne {toks : List Text} {ws : List WireInstr} (h : Spelled toks ws) (hne : ws ≠ []) : toks ≠ [] := by
  cases h with
  | nil => exact absurd rfl hne
  | cons hw _ => cases hw <;> simp

theorem map_wire_ofWireStr (ws : List WireInstr) : (ws.map ofWireStr).map Instruction.wire = ws := by
  rw [List.map_map]
  conv_rhs => rw [← List.map_id ws]
  exact List.map_congr_left fun w _ => wire_ofWireStr w

/-- C31. What is read as a script is a spelling of that script, word by word. -/
theorem C31_from_string (t : Text) (s : Script) (h : Script.fromText t = .ok s) :
    ∃ toks, t = [' '].intercalate toks ∧ (∀ w ∈ toks, ' ' ∉ w) ∧ Spelled toks (s.instructions.map Instruction.wire) := by
  unfold Script.fromText at h
  cases hr : Script.readTokens (splitSpace t) with
  | error e => rw [hr] at h; cases h
  | ok is =>
    rw [hr] at h
    simp only at h
    obtain ⟨ws, hw, rfl⟩ := readTokens_sound _ _ _ (le_refl _) hr
    unfold Script.create at h
    split at h
    · cases h
    · injection h with h
      subst h
      obtain ⟨-, h1, h2⟩ := splitSpace_spec t
      refine ⟨_, by rw [← joinSpace_eq, h2], h1, ?_⟩
      simp only [map_wire_ofWireStr]
      exact hw

/-- C31. Any spelling of a script is read as that script, unless the classifier trips over a push.  Missing: those
shapes. -/
theorem C31_spelling_partial (toks : List Text) (ws : List WireInstr) (h : Spelled toks ws) (hne : ws ≠ []) :
    (¬ Crashes (shape ws) ∧ ∃ s, Script.fromText ([' '].intercalate toks) = .ok s ∧
      s.instructions.map Instruction.wire = ws) ∨
    (Crashes (shape ws) ∧ Script.fromText ([' '].intercalate toks) = .error .attributeError) := by
  unfold Script.fromText
  rw [← joinSpace_eq, splitSpace_join _ (spelled_ne h hne) (spelled_no_space h), readTokens_spelled h]
  simp only [Script.create]
  have := classify_spec (ws.map ofWireStr)
  rw [map_wire_ofWireStr] at this
  rcases this with ⟨h1, h2⟩ | ⟨h1, c, h2, -⟩
  · right
    rw [h2]
    exact ⟨h1, rfl⟩
  · left
    rw [h2]
    exact ⟨h1, _, rfl, map_wire_ofWireStr ws⟩

/-- C31. A text that spells no script is refused. -/
theorem C31_refuse (t : Text) (h : ∀ toks ws, Spelled toks ws → t ≠ [' '].intercalate toks) :
    ∃ e, Script.fromText t = .error e := by
  cases hf : Script.fromText t with
  | error e => exact ⟨e, rfl⟩
  | ok s =>
    obtain ⟨toks, h1, -, h2⟩ := C31_from_string t s hf
    exact absurd h1 (h _ _ h2)

/-- Several spellings of one script. -/
example : Spelled ["OP_FALSE".toList, "OP_PUSHDATA1".toList, "002".toList, "0xaB01".toList]
    [(0, none), (76, some [171, 1])] :=
  .cons (ws := [_]) (.plain ⟨"OP_FALSE", by decide, rfl, by decide⟩ (by decide))
    (.cons (ws := [_, _, _]) (.counted (w := 1) ⟨"OP_PUSHDATA1", by decide, rfl, by decide⟩ (by decide) (by decide)
      (numeral_ascii (t := "002".toList) (by decide) (by unfold Digits; decide)) ⟨"aB01".toList, by decide, by decide, by decide +kernel⟩) .nil)

example : (match Script.fromText "OP_FALSE OP_PUSHDATA1 002 0xaB01".toList with
    | .ok s => decide (s.instructions.map Instruction.wire = [(0, none), (76, some [171, 1])])
    | .error _ => false) = true := by decide +kernel

end Bitforge
