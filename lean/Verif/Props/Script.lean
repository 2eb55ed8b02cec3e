import Verif.Proofs.Classify
import Verif.Proofs.ScriptText
import Verif.Props.PubKey

/-! # C26–C32: opcodes, instructions, scripts -/

namespace Bitforge
open Spec

/-! ## C26 opcode selection for pushes -/

theorem mk_fin (n : Nat) (h : n < 256) : Opcode.num n = ⟨⟨n, h⟩⟩ := by
  simp only [Opcode.num, Opcode.mk.injEq]
  exact Fin.ext (Nat.mod_eq_of_lt h)

theorem pushFor_table (n : Int) : Opcode.pushFor n =
    if n ≤ 0 then .error .opInvalidConstPushLength
    else if n ≤ 75 then .ok (Opcode.num n.toNat)
    else if n ≤ 255 then .ok (.num 76)
    else if n ≤ 65535 then .ok (.num 77)
    else if n ≤ 4294967295 then .ok (.num 78)
    else .error .opInvalidPushLength := by
  have m6 : (Opcode.num 76).dataLengthMax = 255 := by decide
  have m7 : (Opcode.num 77).dataLengthMax = 65535 := by decide
  have m8 : (Opcode.num 78).dataLengthMax = 4294967295 := by decide +kernel
  unfold Opcode.pushFor
  by_cases h75 : n ≤ 75
  · rw [if_pos h75]
    unfold Opcode.constPushFor
    by_cases h0 : n ≤ 0
    · rw [if_pos (by omega), if_pos h0]
    · rw [if_neg (by omega), if_neg h0, if_pos h75]
      unfold Opcode.make
      rw [if_neg (by omega)]
  · rw [if_neg h75, if_neg (by omega), if_neg h75]
    unfold Opcode.varPushFor
    rw [if_neg (by omega)]
    simp only [List.find?_cons, m6, m7, m8, List.find?_nil]
    by_cases h1 : n ≤ 255
    · simp [h1]
    · by_cases h2 : n ≤ 65535
      · simp [h1, h2]
      · by_cases h3 : n ≤ 4294967295
        · simp [h1, h2, h3]
        · simp [h1, h2, h3]

/-- C26. The table of push opcodes: direct for 1..75, then PUSHDATA1, PUSHDATA2, PUSHDATA4. -/
theorem C26_table (n : Nat) :
    (1 ≤ n ∧ n ≤ 75 → ∃ o, Opcode.pushFor n = .ok o ∧ o.number.val = n) ∧
    (76 ≤ n ∧ n < 256 → ∃ o, Opcode.pushFor n = .ok o ∧ o.number = 76) ∧
    (256 ≤ n ∧ n < 65536 → ∃ o, Opcode.pushFor n = .ok o ∧ o.number = 77) ∧
    (65536 ≤ n ∧ n < 2 ^ 32 → ∃ o, Opcode.pushFor n = .ok o ∧ o.number = 78) := by
  rw [pushFor_table]
  refine ⟨fun h => ?_, fun h => ?_, fun h => ?_, fun h => ?_⟩
  · rw [if_neg (by omega), if_pos (by omega)]
    refine ⟨_, rfl, ?_⟩
    rw [Int.toNat_natCast, mk_fin n (by omega)]
  · rw [if_neg (by omega), if_neg (by omega), if_pos (by omega)]; exact ⟨_, rfl, rfl⟩
  · rw [if_neg (by omega), if_neg (by omega), if_neg (by omega), if_pos (by omega)]; exact ⟨_, rfl, rfl⟩
  · rw [if_neg (by omega), if_neg (by omega), if_neg (by omega), if_neg (by omega), if_pos (by omega)]
    exact ⟨_, rfl, rfl⟩

/-- C26. Zero, negative and too large lengths are rejected. -/
theorem C26_rejects (n : Int) : (n ≤ 0 → Opcode.pushFor n = .error .opInvalidConstPushLength) ∧
    (2 ^ 32 ≤ n → Opcode.pushFor n = .error .opInvalidPushLength) := by
  rw [pushFor_table]
  refine ⟨fun h => by rw [if_pos h], fun h => ?_⟩
  rw [if_neg (by omega), if_neg (by omega), if_neg (by omega), if_neg (by omega), if_neg (by omega)]

theorem pushOverhead_of (b : Byte) (n k : Nat) (h : pushOverhead b n = some k) :
    (n = b.val ∧ 1 ≤ n ∧ n ≤ 75 ∧ k = 1) ∨ (b = 76 ∧ n < 256 ∧ k = 2) ∨ (b = 77 ∧ n < 65536 ∧ k = 3) ∨
    (b = 78 ∧ n < 4294967296 ∧ k = 5) := by
  unfold pushOverhead at h
  rcases pushKind_cases b with hk | hk | ⟨rfl, hk⟩ | ⟨rfl, hk⟩ | ⟨rfl, hk⟩ <;> simp only [hk] at h
  · cases h
  · have hc := (pushKind_const b).2 hk
    simp only [Opcode.isConstPush, Bool.and_eq_true, decide_eq_true_eq] at hc
    split at h
    · next hn => cases h; exact .inl ⟨hn, by omega, by omega, rfl⟩
    · cases h
  · split at h
    · next hn => cases h; exact .inr (.inl ⟨rfl, by omega, rfl⟩)
    · cases h
  · split at h
    · next hn => cases h; exact .inr (.inr (.inl ⟨rfl, by omega, rfl⟩))
    · cases h
  · split at h
    · next hn => cases h; exact .inr (.inr (.inr ⟨rfl, by omega, rfl⟩))
    · cases h

theorem pushOverhead_direct (n : Nat) (h : 1 ≤ n ∧ n ≤ 75) : pushOverhead ⟨n, by omega⟩ n = some 1 := by
  have hk : pushKind ⟨n, by omega⟩ = .direct n := by
    unfold pushKind
    rw [if_neg (by show n ≠ 0; omega), if_pos (by show n < 76; omega)]
  unfold pushOverhead
  simp [hk]

/-- C26. For every length from 1 the chosen opcode can push that many bytes, and it is the only opcode with the
least overhead. -/
theorem C26_shortest (n : Nat) (o : Opcode) (h : Opcode.pushFor n = .ok o) :
    ∃ k, pushOverhead o.number n = some k ∧
      ∀ b k', pushOverhead b n = some k' → k ≤ k' ∧ (k' = k → b = o.number) := by
  rw [pushFor_table] at h
  have hb76 : pushOverhead 76 n = if n < 256 then some 2 else none := by
    unfold pushOverhead; simp [show pushKind 76 = .counted 1 by decide]
  have hb77 : pushOverhead 77 n = if n < 65536 then some 3 else none := by
    unfold pushOverhead; simp [show pushKind 77 = .counted 2 by decide]
  have hb78 : pushOverhead 78 n = if n < 4294967296 then some 5 else none := by
    unfold pushOverhead; simp [show pushKind 78 = .counted 4 by decide]
  split at h
  · cases h
  · split at h
    · cases h
      rw [Int.toNat_natCast, mk_fin n (by omega)]
      refine ⟨1, pushOverhead_direct n (by omega), fun b k' hb => ?_⟩
      rcases pushOverhead_of b n k' hb with ⟨h1, h2, h3, rfl⟩ | ⟨rfl, _, rfl⟩ | ⟨rfl, _, rfl⟩ | ⟨rfl, _, rfl⟩
      · exact ⟨le_refl _, fun _ => Fin.ext h1.symm⟩
      all_goals exact ⟨by omega, fun h => by omega⟩
    · split at h
      · cases h
        refine ⟨2, by show pushOverhead 76 n = _; rw [hb76, if_pos (by omega)], fun b k' hb => ?_⟩
        rcases pushOverhead_of b n k' hb with ⟨h1, h2, h3, rfl⟩ | ⟨rfl, _, rfl⟩ | ⟨rfl, _, rfl⟩ | ⟨rfl, _, rfl⟩
        · omega
        · exact ⟨le_refl _, fun _ => rfl⟩
        all_goals exact ⟨by omega, fun h => by omega⟩
      · split at h
        · cases h
          refine ⟨3, by show pushOverhead 77 n = _; rw [hb77, if_pos (by omega)], fun b k' hb => ?_⟩
          rcases pushOverhead_of b n k' hb with ⟨h1, h2, h3, rfl⟩ | ⟨rfl, _, rfl⟩ | ⟨rfl, _, rfl⟩ | ⟨rfl, _, rfl⟩
          · omega
          · omega
          · exact ⟨le_refl _, fun _ => rfl⟩
          · exact ⟨by omega, fun h => by omega⟩
        · split at h
          · cases h
            refine ⟨5, by show pushOverhead 78 n = _; rw [hb78, if_pos (by omega)], fun b k' hb => ?_⟩
            rcases pushOverhead_of b n k' hb with ⟨h1, h2, h3, rfl⟩ | ⟨rfl, _, rfl⟩ | ⟨rfl, _, rfl⟩ | ⟨rfl, _, rfl⟩
            · omega
            · omega
            · omega
            · exact ⟨le_refl _, fun _ => rfl⟩
          · cases h

example : Opcode.pushFor 300 = .ok (.num 77) ∧ pushOverhead 77 300 = some 3 ∧ pushOverhead 78 300 = some 5 := by
  decide +kernel

/-! ## C27 instructions are well-formed by construction -/

/-- C27. The constructor accepts exactly the well-formed combinations, and stores its arguments. -/
theorem C27_accepts_iff (o : Opcode) (d : Option Data) (i : Instruction) :
    Instruction.make o d = .ok i ↔ i = ⟨o, d⟩ ∧ Wf (o.number, d.map Data.val) := by
  rw [instr_make_ok_iff]
  constructor
  · rintro ⟨rfl, h⟩; exact ⟨rfl, h⟩
  · rintro ⟨rfl, h⟩; exact ⟨rfl, h⟩

/-- C27. What is raised otherwise.  An opcode without a name turns UnexpectedData into KeyError. -/
theorem C27_errors (o : Opcode) (d : Option Data) (h : ¬ Wf (o.number, d.map Data.val)) :
    Instruction.make o d = .error (match pushKind o.number, d with
      | .plain, _ => if Named o.number then .insUnexpectedData else .keyError
      | _, none => .typeError
      | _, some _ => .insInvalidDataLength) := by
  rw [instr_make]
  obtain ⟨op⟩ := o
  cases d with
  | none =>
    simp only [Option.map_none, Wf] at h
    rcases hk : pushKind op with n | w | _ <;> simp_all
  | some d =>
    simp only [Option.map_some, Wf] at h
    rcases hk : pushKind op with n | w | _
    · simp only [hk] at h ⊢; simp [h]
    · simp only [hk] at h ⊢; rw [if_neg h]
    · simp only []
      unfold Opcode.mention
      by_cases hn : Named op
      · obtain ⟨t, ht, _⟩ := name_named op hn
        rw [ht, if_pos hn]
      · rw [name_unnamed op hn, if_neg hn]

/-- C27. `Instruction.push_for` pushes the given bytes, for every non-empty byte string shorter than 2^32. -/
theorem C27_push_for (d : Data) (h : 1 ≤ d.val.length) (h' : d.val.length < 2 ^ 32) :
    ∃ o, Opcode.pushFor d.val.length = .ok o ∧ Instruction.pushFor d = .ok ⟨o, some d⟩ := by
  have ho : ∃ o, Opcode.pushFor d.val.length = .ok o := by
    rw [pushFor_table]
    rw [if_neg (by omega)]
    split
    · exact ⟨_, rfl⟩
    · split
      · exact ⟨_, rfl⟩
      · split
        · exact ⟨_, rfl⟩
        · rw [if_pos (by omega)]; exact ⟨_, rfl⟩
  obtain ⟨o, ho⟩ := ho
  refine ⟨o, ho, ?_⟩
  unfold Instruction.pushFor
  rw [ho]
  simp only []
  rw [C27_accepts_iff]
  refine ⟨rfl, ?_⟩
  obtain ⟨k, hk, _⟩ := C26_shortest _ _ ho
  unfold pushOverhead at hk
  simp only [Option.map_some, Wf]
  rcases hp : pushKind o.number with n | w | _ <;> simp only [hp] at hk ⊢
  · split at hk
    · assumption
    · cases hk
  · split at hk
    · assumption
    · cases hk
  · cases hk

example : Instruction.make (.num 3) (some ⟨.str, [1, 2, 3]⟩) = .ok ⟨.num 3, some ⟨.str, [1, 2, 3]⟩⟩ ∧
    Instruction.make (.num 3) (some ⟨.str, [1, 2]⟩) = .error .insInvalidDataLength ∧
    Instruction.make (.num 118) (some ⟨.str, [1, 2]⟩) = .error .insUnexpectedData ∧
    Instruction.make (.num 200) (some ⟨.str, [1, 2]⟩) = .error .keyError ∧
    Instruction.make (.num 76) none = .error .typeError := by decide +kernel

/-! ## C28 build, serialise, parse -/

/-- Well-formed scripts: every instruction is well-formed. -/
def Script.WellFormed (s : Script) : Prop := ∀ i ∈ s.instructions, Wf i.wire

theorem eq_iff_wire (s t : Script) : s.eq t = true ↔
    s.instructions.map Instruction.wire = t.instructions.map Instruction.wire := by
  obtain ⟨c, is⟩ := s
  obtain ⟨c', js⟩ := t
  simp only [Script.eq, Bool.and_eq_true, beq_iff_eq]
  have key : ∀ i j : Instruction, i.eq j = true ↔ i.wire = j.wire := by
    intro i j
    obtain ⟨⟨op⟩, d⟩ := i
    obtain ⟨⟨op'⟩, d'⟩ := j
    simp [Instruction.eq, Instruction.wire]
  induction is generalizing js with
  | nil => cases js <;> simp
  | cons i is ih =>
    cases js with
    | nil => simp
    | cons j js =>
      simp only [List.length_cons, Nat.add_right_cancel_iff, List.zip_cons_cons, List.all_cons, Bool.and_eq_true,
        key, List.map_cons, List.cons.injEq]
      have := ih js
      tauto

/-- C28, part that holds: a well-formed script without PUSHDATA opcodes serialises, and parsing the bytes gives an
equal script unless the classifier trips over a push (`Crashes`).  Missing: both exceptions (see the refutations). -/
theorem C28_roundtrip_partial (s : Script) (hw : s.WellFormed)
    (hp : ∀ i ∈ s.instructions, ¬ (76 ≤ i.opcode.number.val ∧ i.opcode.number.val ≤ 78)) :
    ∃ b, s.toBytes = .ok b ∧ Encodes (s.instructions.map Instruction.wire) b ∧
      ((¬ Crashes (shape (s.instructions.map Instruction.wire)) ∧
          ∃ t, Script.fromBytes b = .ok t ∧ t.eq s = true) ∨
        (Crashes (shape (s.instructions.map Instruction.wire)) ∧ Script.fromBytes b = .error .attributeError)) := by
  rcases bytesOf_spec s.instructions hw with ⟨⟨w, hw1, hw2⟩, _⟩ | ⟨_, b, hb, he⟩
  · obtain ⟨i, hi, rfl⟩ := List.mem_map.1 hw1
    exact absurd hw2 (hp i hi)
  · refine ⟨b, hb, he, ?_⟩
    rw [fromBytes_encodes _ _ he]
    have hwire : ((s.instructions.map Instruction.wire).map ofWire).map Instruction.wire =
        s.instructions.map Instruction.wire := by
      rw [List.map_map]; conv_rhs => rw [← List.map_id (s.instructions.map Instruction.wire)]
      exact List.map_congr_left fun w _ => wire_ofWire w
    unfold Script.create
    rcases classify_spec ((s.instructions.map Instruction.wire).map ofWire) with ⟨hc, he⟩ | ⟨hc, c, he, _⟩
    · right; rw [hwire] at hc; rw [he]; exact ⟨hc, rfl⟩
    · left; rw [hwire] at hc; rw [he]
      exact ⟨hc, _, rfl, by rw [eq_iff_wire]; exact hwire⟩

/-- C28 is false of the code: no script with a PUSHDATA opcode can be serialised. -/
theorem C28_pushdata_refuted (s : Script) (hw : s.WellFormed)
    (hp : ∃ i ∈ s.instructions, 76 ≤ i.opcode.number.val ∧ i.opcode.number.val ≤ 78) :
    s.toBytes = .error .typeError := by
  obtain ⟨i, hi, hv⟩ := hp
  rcases bytesOf_spec s.instructions hw with ⟨_, h⟩ | ⟨hn, _⟩
  · exact h
  · exact absurd ⟨i.wire, List.mem_map_of_mem hi, hv⟩ hn

/-- C28 is false of the code: a script of four pushes can be built and serialised but not parsed. -/
theorem C28_parse_refuted : ∃ (s : Script) (b : Bytes), s.WellFormed ∧ s.toBytes = .ok b ∧
    Script.fromBytes b = .error .attributeError :=
  ⟨⟨.generic, List.replicate 4 ⟨.num 1, some ⟨.str, [7]⟩⟩⟩, [1, 7, 1, 7, 1, 7, 1, 7], by
    intro i hi
    rw [List.eq_of_mem_replicate hi]
    decide, by decide +kernel, by decide +kernel⟩

example : ∃ (s : Script), s.toBytes = .ok [118, 169, 1, 5, 136, 172] ∧
    Script.fromBytes [118, 169, 1, 5, 136, 172] = .ok ⟨.payToPubkeyOut, [⟨.num 118, none⟩, ⟨.num 169, none⟩,
      ⟨.num 1, some ⟨.bytearray, [5]⟩⟩, ⟨.num 136, none⟩, ⟨.num 172, none⟩]⟩ :=
  ⟨⟨.generic, [⟨.num 118, none⟩, ⟨.num 169, none⟩, ⟨.num 1, some ⟨.str, [5]⟩⟩, ⟨.num 136, none⟩, ⟨.num 172, none⟩]⟩,
    by decide +kernel, by decide +kernel⟩

/-! ## C29 parse, serialise -/

theorem fromBytes_ok (b : Bytes) (s : Script) (h : Script.fromBytes b = .ok s) :
    ∃ ws, Encodes ws b ∧ s.instructions = ws.map ofWire ∧ Script.classify s.instructions = .ok s.cls := by
  rcases fromBytes_cases b with ⟨ws, hw⟩ | ⟨_, r, q, he, _⟩
  · rw [fromBytes_encodes ws b hw] at h
    unfold Script.create at h
    split at h
    · cases h
    · next hc => cases h; exact ⟨ws, hw, rfl, hc⟩
  · rw [he] at h; cases h

/-- C29, part that holds: if the parsed script has no PUSHDATA opcode, serialising it gives the bytes back.
Missing: PUSHDATA (see the refutation). -/
theorem C29_roundtrip_partial (b : Bytes) (s : Script) (h : Script.fromBytes b = .ok s)
    (hp : ∀ i ∈ s.instructions, ¬ (76 ≤ i.opcode.number.val ∧ i.opcode.number.val ≤ 78)) : s.toBytes = .ok b := by
  obtain ⟨ws, hw, hi, _⟩ := fromBytes_ok b s h
  have hwire : s.instructions.map Instruction.wire = ws := by
    rw [hi, List.map_map]; conv_rhs => rw [← List.map_id ws]
    exact List.map_congr_left fun w _ => wire_ofWire w
  rcases bytesOf_spec s.instructions (by
    intro i hi'
    exact encodes_wf hw _ (hwire ▸ List.mem_map_of_mem hi')) with ⟨⟨w, hw1, hw2⟩, _⟩ | ⟨_, b', hb, he⟩
  · obtain ⟨i, hi, rfl⟩ := List.mem_map.1 hw1
    exact absurd hw2 (hp i hi)
  · rw [hwire] at he
    rw [encodes_unique hw he]; exact hb

/-- C29 is false of the code: a parsed PUSHDATA script cannot be serialised again. -/
theorem C29_pushdata_refuted : ∃ (b : Bytes) (s : Script), Script.fromBytes b = .ok s ∧ s.toBytes = .error .typeError :=
  ⟨[76, 2, 7, 8], ⟨.generic, [⟨.num 76, some ⟨.bytearray, [7, 8]⟩⟩]⟩, by decide +kernel, by decide +kernel⟩

/-- C29. Parsing is injective: different byte strings never give equal scripts, PUSHDATA or not. -/
theorem C29_injective (b b' : Bytes) (s s' : Script) (h : Script.fromBytes b = .ok s)
    (h' : Script.fromBytes b' = .ok s') (he : s.eq s' = true) : b = b' := by
  obtain ⟨ws, hw, hi, _⟩ := fromBytes_ok b s h
  obtain ⟨ws', hw', hi', _⟩ := fromBytes_ok b' s' h'
  rw [eq_iff_wire, hi, hi', List.map_map, List.map_map] at he
  have e : ∀ l : List WireInstr, l.map (Instruction.wire ∘ ofWire) = l := by
    intro l; conv_rhs => rw [← List.map_id l]
    exact List.map_congr_left fun w _ => wire_ofWire w
  rw [e, e] at he
  subst he
  exact encodes_unique hw hw'

/-! ## C30 totality of parsing -/

/-- C30. A byte string that is not a sequence of complete instructions raises InsufficientData, reporting that more
bytes were requested than remain. -/
theorem C30_truncated (b : Bytes) (h : ¬ ∃ ws, Encodes ws b) :
    ∃ r q, Script.fromBytes b = .error (.insufficientData r q) ∧ r < q := by
  rcases fromBytes_cases b with hw | ⟨_, hr⟩
  · exact absurd hw h
  · exact hr

/-- C30, part that holds: for complete instructions parsing returns exactly these instructions, unless the shape makes
the classifier raise AttributeError.  Missing: those shapes. -/
theorem C30_complete_partial (ws : List WireInstr) (b : Bytes) (h : Encodes ws b) :
    (¬ Crashes (shape ws) ∧ ∃ s, Script.fromBytes b = .ok s ∧ s.instructions.map Instruction.wire = ws) ∨
    (Crashes (shape ws) ∧ Script.fromBytes b = .error .attributeError) := by
  have hwire : (ws.map ofWire).map Instruction.wire = ws := by
    rw [List.map_map]; conv_rhs => rw [← List.map_id ws]
    exact List.map_congr_left fun w _ => wire_ofWire w
  rw [fromBytes_encodes ws b h]
  unfold Script.create
  rcases classify_spec (ws.map ofWire) with ⟨hc, he⟩ | ⟨hc, c, he, _⟩
  · right; rw [hwire] at hc; rw [he]; exact ⟨hc, rfl⟩
  · left; rw [hwire] at hc; rw [he]; exact ⟨hc, _, rfl, hwire⟩

/-- C30. No other outcome exists. -/
theorem C30_outcomes (b : Bytes) : (∃ s, Script.fromBytes b = .ok s) ∨
    (∃ r q, Script.fromBytes b = .error (.insufficientData r q)) ∨ Script.fromBytes b = .error .attributeError := by
  by_cases h : ∃ ws, Encodes ws b
  · obtain ⟨ws, h⟩ := h
    rcases C30_complete_partial ws b h with ⟨_, s, hs, _⟩ | ⟨_, he⟩
    · exact .inl ⟨s, hs⟩
    · exact .inr (.inr he)
  · obtain ⟨r, q, hr, _⟩ := C30_truncated b h
    exact .inr (.inl ⟨r, q, hr⟩)

/-- C30 is false of the code: four pushes are a complete script, but parsing raises AttributeError. -/
theorem C30_attribute_error_refuted : ∃ (ws : List WireInstr) (b : Bytes), Encodes ws b ∧
    Script.fromBytes b = .error .attributeError := by
  refine ⟨[(1, some [7]), (1, some [7]), (1, some [7]), (1, some [7])], [1, 7, 1, 7, 1, 7, 1, 7], ?_, by decide +kernel⟩
  have w : Wf ((1, some [7]) : WireInstr) := by decide
  have e : IsWire ((1, some [7]) : WireInstr) [1, 7] := by
    simp only [IsWire, show pushKind 1 = .direct 1 by decide]
  exact .cons w e (.cons w e (.cons w e (.cons w e .nil)))

example : Script.fromBytes [2, 7] = .error (.insufficientData 1 2) := by decide +kernel

/-! ## C31 text form -/

/-- C31, part that holds: a non-empty well-formed script of named opcodes prints, and reading the text gives an equal
script unless the classifier trips over a push.  Missing: those shapes. -/
theorem C31_roundtrip_partial (s : Script) (hw : s.WellFormed) (hne : s.instructions ≠ [])
    (hn : ∀ i ∈ s.instructions, Named i.opcode.number) :
    ∃ t, s.toText = .ok t ∧
      ((¬ Crashes (shape (s.instructions.map Instruction.wire)) ∧
          ∃ s', Script.fromText t = .ok s' ∧ s'.eq s = true) ∨
        (Crashes (shape (s.instructions.map Instruction.wire)) ∧ Script.fromText t = .error .attributeError)) := by
  obtain ⟨ts, h1, h2, h3, h4⟩ := mapM_toText s.instructions hw hn hne
  refine ⟨Script.joinSpace ts, h1, ?_⟩
  have hwire : (s.instructions.map Instruction.asStr).map Instruction.wire = s.instructions.map Instruction.wire := by
    rw [List.map_map]
    exact List.map_congr_left fun i _ => asStr_wire i
  unfold Script.fromText
  rw [splitSpace_join ts h2 h3, h4]
  simp only []
  unfold Script.create
  rcases classify_spec (s.instructions.map Instruction.asStr) with ⟨hc, he⟩ | ⟨hc, c, he, _⟩
  · right; rw [hwire] at hc; rw [he]; exact ⟨hc, rfl⟩
  · left; rw [hwire] at hc; rw [he]
    exact ⟨hc, _, rfl, by rw [eq_iff_wire]; exact hwire⟩

/-- C31. A script containing a nameless opcode cannot be printed. -/
theorem C31_nameless (s : Script) (hw : s.WellFormed) (hn : ∃ i ∈ s.instructions, ¬ Named i.opcode.number) :
    s.toText = .error .keyError := by
  unfold Script.toText
  rw [mapM_toText_unnamed s.instructions hw hn]; rfl

/-- C31. The empty script prints as the empty text, which does not read back. -/
theorem C31_empty : (Script.mk .generic []).toText = .ok [] ∧ Script.fromText [] = .error .scrUnknownOpcodeName := by
  constructor
  · rfl
  · decide +kernel

/-- C31 is false of the code for shapes that trip the classifier. -/
theorem C31_refuted : ∃ (s : Script) (t : Text), s.WellFormed ∧ s.toText = .ok t ∧
    Script.fromText t = .error .attributeError :=
  ⟨⟨.generic, List.replicate 4 ⟨.num 1, some ⟨.str, [7]⟩⟩⟩, "1 0x07 1 0x07 1 0x07 1 0x07".toList, by
    intro i hi
    rw [List.eq_of_mem_replicate hi]
    decide, by decide +kernel, by decide +kernel⟩

example : Script.fromText "OP_DUP OP_PUSHDATA1 2 0x0aff 3 0x010203".toList = .ok ⟨.generic,
    [⟨.num 118, none⟩, ⟨.num 76, some ⟨.str, [10, 255]⟩⟩, ⟨.num 3, some ⟨.str, [1, 2, 3]⟩⟩]⟩ := by decide +kernel

end Bitforge
