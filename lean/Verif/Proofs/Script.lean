import Verif.Script
import Verif.Spec.Script
import Verif.Proofs.Buffer
import Verif.Proofs.Hex

/-! Helper lemmas on opcodes, instructions and scripts. -/

namespace Bitforge
open Spec

/-- The wire view of an instruction. -/
def Instruction.wire (i : Instruction) : WireInstr := (i.opcode.number, i.data.map Data.val)

theorem opcode_num_val (o : Opcode) : Opcode.num o.number.val = o := by
  cases o; simp [Opcode.num]

theorem opcode_make_val (b : Byte) : Opcode.make (b.val : Int) = .ok ⟨b⟩ := by
  have := b.isLt
  unfold Opcode.make
  rw [if_neg (by omega)]
  simp [Opcode.num]

theorem pushKind_const : ∀ b : Byte, (Opcode.mk b).isConstPush = true ↔ pushKind b = .direct b.val := by decide +kernel
theorem pushKind_plain : ∀ b : Byte, (Opcode.mk b).isPush = false ↔ pushKind b = .plain := by decide +kernel
theorem pushKind_var : ∀ b : Byte, (Opcode.mk b).isVarPush = true ↔
    (b = 76 ∧ pushKind b = .counted 1) ∨ (b = 77 ∧ pushKind b = .counted 2) ∨ (b = 78 ∧ pushKind b = .counted 4) := by
  decide +kernel
theorem pushKind_cases : ∀ b : Byte, (pushKind b = .plain) ∨ (pushKind b = .direct b.val) ∨
    (b = 76 ∧ pushKind b = .counted 1) ∨ (b = 77 ∧ pushKind b = .counted 2) ∨ (b = 78 ∧ pushKind b = .counted 4) := by
  decide +kernel
theorem push_split : ∀ b : Byte, (Opcode.mk b).isPush = ((Opcode.mk b).isConstPush || (Opcode.mk b).isVarPush) :=
  fun _ => rfl
theorem const_not_var : ∀ b : Byte, (Opcode.mk b).isConstPush = true → (Opcode.mk b).isVarPush = false := by
  decide +kernel

/-- `2^32 - 1` is not unfolded here. -/
theorem dataLengthMax_of (b : Byte) : (Opcode.mk b).dataLengthMax = match pushKind b with
    | .plain => 0
    | .direct n => n
    | .counted w => 256 ^ w - 1 := by
  revert b; decide +kernel

theorem nbytes_of : ∀ b : Byte, ∀ w, pushKind b = .counted w → (Opcode.mk b).dataLengthNbytes = .ok w := by
  intro b w h
  rcases pushKind_cases b with h' | h' | ⟨rfl, h'⟩ | ⟨rfl, h'⟩ | ⟨rfl, h'⟩
  · simp [h] at h'
  · simp [h] at h'
  all_goals (rw [h] at h'; cases h'; rfl)

/-- The constructor of `Instruction` accepts exactly the well-formed combinations. -/
theorem instr_make (o : Opcode) (d : Option Data) : Instruction.make o d =
    match pushKind o.number, d with
    | .plain, none => .ok ⟨o, none⟩
    | .plain, some _ => .error (o.mention .insUnexpectedData)
    | .direct _, none => .error .typeError
    | .counted _, none => .error .typeError
    | .direct n, some d => if d.val.length = n then .ok ⟨o, some d⟩ else .error .insInvalidDataLength
    | .counted w, some d => if d.val.length < 256 ^ w then .ok ⟨o, some d⟩ else .error .insInvalidDataLength := by
  obtain ⟨b⟩ := o
  unfold Instruction.make
  have hmax := dataLengthMax_of b
  rcases pushKind_cases b with h | h | ⟨rfl, h⟩ | ⟨rfl, h⟩ | ⟨rfl, h⟩
  · have hp := (pushKind_plain b).2 h
    rw [hp]
    cases d <;> simp [h]
  · have hc := (pushKind_const b).2 h
    have hv := const_not_var b hc
    have hp : (Opcode.mk b).isPush = true := by rw [push_split, hc]; rfl
    rw [if_pos hp]
    cases d with
    | none => simp [h]
    | some d =>
      simp only [h] at hmax ⊢
      simp only [hc, hv, hmax]
      by_cases hl : d.val.length = b.val <;> simp [hl]
  all_goals
    cases d with
    | none => rfl
    | some d =>
      simp only [h] at hmax ⊢
      rw [if_pos (by decide)]
      simp only [hmax]
      simp [show (Opcode.mk 76).isConstPush = false by decide, show (Opcode.mk 77).isConstPush = false by decide,
        show (Opcode.mk 78).isConstPush = false by decide, show (Opcode.mk 76).isVarPush = true by decide,
        show (Opcode.mk 77).isVarPush = true by decide, show (Opcode.mk 78).isVarPush = true by decide]
      by_cases hl : d.val.length < 256 ^ 1 <;> by_cases hl2 : d.val.length < 256 ^ 2 <;>
        by_cases hl4 : d.val.length < 256 ^ 4 <;> simp only [Nat.reducePow] at * <;>
        first
          | (rw [if_neg (by omega), if_pos (by omega)])
          | (rw [if_pos (by omega), if_neg (by omega)])

theorem instr_make_ok_iff (o : Opcode) (d : Option Data) (i : Instruction) :
    Instruction.make o d = .ok i ↔ i = ⟨o, d⟩ ∧ Wf i.wire := by
  rw [instr_make]
  constructor
  · intro h
    rcases hk : pushKind o.number with _ | _ | _ <;> cases d <;> simp only [hk] at h
    · cases h
    · split at h
      · next hl => cases h; exact ⟨rfl, by simp [Instruction.wire, Wf, hk, hl]⟩
      · cases h
    · cases h
    · split at h
      · next hl => cases h; exact ⟨rfl, by simp [Instruction.wire, Wf, hk, hl]⟩
      · cases h
    · cases h; exact ⟨rfl, by simp [Instruction.wire, Wf, hk]⟩
    · cases h
  · rintro ⟨rfl, hw⟩
    rcases hk : pushKind o.number with _ | _ | _ <;> cases d <;>
      simp_all [Instruction.wire, Wf]

/-! ## Parsing -/

/-- What reading an instruction produces: data from a buffer are `bytearray`s. -/
def ofWire (w : WireInstr) : Instruction := ⟨⟨w.1⟩, w.2.map fun d => ⟨.bytearray, d⟩⟩

@[simp] theorem wire_ofWire (w : WireInstr) : (ofWire w).wire = w := by
  obtain ⟨op, d⟩ := w
  cases d <;> rfl

theorem read_one (op : Byte) (s : Bytes) : Buffer.read 1 (op :: s) = (.ok [op], s) := read_append' 1 [op] s rfl

theorem decodeInt_one (op : Byte) : decodeInt [op] = op.val := by simp [decodeInt]

theorem lift_bind {α β : Type} (a : α) (f : α → Rd β) (s : Bytes) : Rd.bind (Rd.lift (.ok a)) f s = f a s := rfl

theorem readInstruction_cons (op : Byte) (s : Bytes) : Script.readInstruction (op :: s) =
    match pushKind op with
    | .plain => (.ok (ofWire (op, none)), s)
    | .direct n => Rd.bind (Buffer.read n) (fun d => Rd.pure (ofWire (op, some d))) s
    | .counted w => Rd.bind (Buffer.read w) (fun c =>
        Rd.bind (Buffer.read (leValue c)) (fun d => Rd.pure (ofWire (op, some d)))) s := by
  unfold Script.readInstruction
  rw [Rd.bind_ok (read_one op s), decodeInt_one, opcode_make_val, lift_bind]
  rcases hk : pushKind op with n | w | _
  · have hc : pushKind op = .direct op.val := by
      rcases pushKind_cases op with h | h | ⟨_, h⟩ | ⟨_, h⟩ | ⟨_, h⟩ <;> rw [hk] at h <;> cases h; exact hk
    have hn : n = op.val := by rw [hk] at hc; exact PushKind.direct.inj hc
    subst hn
    rw [if_pos ((pushKind_const op).2 hc)]
    simp only []
    rcases hr : Buffer.read op.val s with ⟨r, s'⟩
    cases r with
    | error e => rw [Rd.bind_err hr, Rd.bind_err hr]
    | ok d =>
      rw [Rd.bind_ok hr, Rd.bind_ok hr]
      have := (read_ok_iff _ _ _ _).1 hr
      simp only [Rd.lift, instr_make, hk, if_pos this.2]
      rfl
  · have hnc : ¬ (Opcode.mk op).isConstPush = true := by
      rw [pushKind_const, hk]; simp
    have hv : (Opcode.mk op).isVarPush = true := by
      rw [pushKind_var]
      rcases pushKind_cases op with h | h | h
      · simp [hk] at h
      · simp [hk] at h
      · exact h
    rw [if_neg hnc, if_pos hv, nbytes_of op w hk, lift_bind]
    simp only []
    rcases hr : Buffer.read w s with ⟨r, s'⟩
    cases r with
    | error e => rw [Rd.bind_err hr, Rd.bind_err hr]
    | ok c =>
      rw [Rd.bind_ok hr, Rd.bind_ok hr, decodeInt_little]
      rcases hr' : Buffer.read (leValue c) s' with ⟨r, s''⟩
      cases r with
      | error e => rw [Rd.bind_err hr', Rd.bind_err hr']
      | ok d =>
        rw [Rd.bind_ok hr', Rd.bind_ok hr']
        have h1 := (read_ok_iff _ _ _ _).1 hr
        have h2 := (read_ok_iff _ _ _ _).1 hr'
        have h3 : d.length < 256 ^ w := by rw [h2.2, ← h1.2]; exact leValue_lt c
        simp only [Rd.lift, instr_make, hk, if_pos h3]
        rfl
  · have hp := (pushKind_plain op).2 hk
    rw [push_split] at hp
    simp only [Bool.or_eq_false_iff] at hp
    rw [if_neg (by rw [hp.1]; simp), if_neg (by rw [hp.2]; simp)]
    simp only [Rd.lift, instr_make, hk]
    rfl

theorem readInstruction_wire (w : WireInstr) (b rest : Bytes) (hw : Wf w) (hb : IsWire w b) :
    Script.readInstruction (b ++ rest) = (.ok (ofWire w), rest) := by
  obtain ⟨op, d⟩ := w
  cases d with
  | none =>
    simp only [IsWire] at hb
    simp only [Wf] at hw
    subst hb
    rw [List.singleton_append, readInstruction_cons]
    simp only [hw]
  | some d =>
    simp only [IsWire] at hb
    simp only [Wf] at hw
    rcases hk : pushKind op with n | w | _
    · simp only [hk] at hb hw
      subst hb
      rw [List.cons_append, readInstruction_cons]
      simp only [hk]
      rw [Rd.bind_ok (read_append' n d rest hw)]
      rfl
    · simp only [hk] at hb hw
      obtain ⟨c, hc, hv, rfl⟩ := hb
      rw [List.cons_append, List.cons_append, readInstruction_cons]
      simp only [hk]
      rw [List.append_assoc, Rd.bind_ok (read_append' w c _ hc), Rd.bind_ok (read_append' (leValue c) d rest hv.symm)]
      rfl
    · simp only [hk] at hb

theorem readInstruction_ok (s s' : Bytes) (i : Instruction) (h : Script.readInstruction s = (.ok i, s')) :
    ∃ w b, s = b ++ s' ∧ Wf w ∧ IsWire w b ∧ i = ofWire w ∧ b ≠ [] := by
  cases s with
  | nil =>
    unfold Script.readInstruction at h
    rw [Rd.bind_err (read_err 1 [] (by simp))] at h
    cases h
  | cons op s =>
    rw [readInstruction_cons] at h
    rcases hk : pushKind op with n | w | _ <;> simp only [hk] at h
    · obtain ⟨d, s1, h1, h2⟩ := Rd.bind_ok_iff.1 h
      cases h2
      obtain ⟨rfl, hl⟩ := (read_ok_iff _ _ _ _).1 h1
      exact ⟨(op, some d), op :: d, rfl, by simp [Wf, hk, hl], by simp [IsWire, hk], rfl, by simp⟩
    · obtain ⟨c, s1, h1, h2⟩ := Rd.bind_ok_iff.1 h
      obtain ⟨d, s2, h3, h4⟩ := Rd.bind_ok_iff.1 h2
      cases h4
      obtain ⟨rfl, hl⟩ := (read_ok_iff _ _ _ _).1 h1
      obtain ⟨rfl, hl'⟩ := (read_ok_iff _ _ _ _).1 h3
      refine ⟨(op, some d), op :: c ++ d, by simp, ?_, ?_, rfl, by simp⟩
      · simp only [Wf, hk]; rw [hl', ← hl]; exact leValue_lt c
      · simp only [IsWire, hk]; exact ⟨c, hl, hl'.symm, rfl⟩
    · cases h
      exact ⟨(op, none), [op], rfl, by simp [Wf, hk], by simp [IsWire], rfl, by simp⟩

theorem read_err_insufficient (n : Nat) (s s' : Bytes) (e : Err) (h : Buffer.read n s = (.error e, s')) :
    ∃ r q, e = .insufficientData r q ∧ r < q := by
  unfold Buffer.read at h
  split at h
  · next hl => cases h; exact ⟨_, _, rfl, hl⟩
  · cases h

theorem readInstruction_err (s s' : Bytes) (e : Err) (h : Script.readInstruction s = (.error e, s')) :
    ∃ r q, e = .insufficientData r q ∧ r < q := by
  cases s with
  | nil =>
    unfold Script.readInstruction at h
    rw [Rd.bind_err (read_err 1 [] (by simp))] at h
    cases h
    exact ⟨0, 1, rfl, by simp⟩
  | cons op s =>
    rw [readInstruction_cons] at h
    rcases hk : pushKind op with n | w | _ <;> simp only [hk] at h
    · rcases hr : Buffer.read n s with ⟨r, s1⟩
      cases r with
      | error e' => rw [Rd.bind_err hr] at h; cases h; exact read_err_insufficient _ _ _ _ hr
      | ok d => rw [Rd.bind_ok hr] at h; cases h
    · rcases hr : Buffer.read w s with ⟨r, s1⟩
      cases r with
      | error e' => rw [Rd.bind_err hr] at h; cases h; exact read_err_insufficient _ _ _ _ hr
      | ok c =>
        rw [Rd.bind_ok hr] at h
        rcases hr' : Buffer.read (leValue c) s1 with ⟨r, s2⟩
        cases r with
        | error e' => rw [Rd.bind_err hr'] at h; cases h; exact read_err_insufficient _ _ _ _ hr'
        | ok d => rw [Rd.bind_ok hr'] at h; cases h
    · cases h

theorem isWire_ne_nil {w : WireInstr} {b : Bytes} (h : IsWire w b) : b ≠ [] := by
  obtain ⟨op, d⟩ := w
  cases d with
  | none => simp only [IsWire] at h; simp [h]
  | some d =>
    simp only [IsWire] at h
    rcases hk : pushKind op with n | w | _ <;> simp only [hk] at h
    · simp [h]
    · obtain ⟨c, _, _, rfl⟩ := h; simp

theorem readInstructions_encodes (ws : List WireInstr) (b : Bytes) (h : Encodes ws b) :
    ∀ fuel, b.length ≤ fuel → Script.readInstructions fuel b = (.ok (ws.map ofWire), []) := by
  induction h with
  | nil => intro fuel _; cases fuel <;> rfl
  | @cons w ws b bs hw hb _ ih =>
    intro fuel hf
    have hne := isWire_ne_nil hb
    have hlen : 0 < b.length := List.length_pos_iff.2 hne
    rw [List.length_append] at hf
    cases fuel with
    | zero => omega
    | succ fuel =>
      simp only [Script.readInstructions]
      rw [if_neg (by simp [hne]), Rd.bind_ok (readInstruction_wire w b bs hw hb), Rd.bind_ok (ih fuel (by omega))]
      rfl

theorem readInstructions_ok : ∀ (fuel : Nat) (b s' : Bytes) (is : List Instruction), b.length ≤ fuel →
    Script.readInstructions fuel b = (.ok is, s') → s' = [] ∧ ∃ ws, is = ws.map ofWire ∧ Encodes ws b := by
  intro fuel
  induction fuel with
  | zero =>
    intro b s' is hf h
    have : b = [] := List.length_eq_zero_iff.1 (by omega)
    subst this
    cases h
    exact ⟨rfl, [], rfl, .nil⟩
  | succ fuel ih =>
    intro b s' is hf h
    simp only [Script.readInstructions] at h
    split at h
    · next hb => subst hb; cases h; exact ⟨rfl, [], rfl, .nil⟩
    · obtain ⟨i, s1, h1, h2⟩ := Rd.bind_ok_iff.1 h
      obtain ⟨is', s2, h3, h4⟩ := Rd.bind_ok_iff.1 h2
      cases h4
      obtain ⟨w, b1, rfl, hw, hb, rfl, hne⟩ := readInstruction_ok _ _ _ h1
      have hlen : 0 < b1.length := List.length_pos_iff.2 hne
      rw [List.length_append] at hf
      obtain ⟨rfl, ws, rfl, he⟩ := ih _ _ _ (by omega) h3
      exact ⟨rfl, w :: ws, rfl, .cons hw hb he⟩

theorem readInstructions_err : ∀ (fuel : Nat) (b s' : Bytes) (e : Err),
    Script.readInstructions fuel b = (.error e, s') → ∃ r q, e = .insufficientData r q ∧ r < q := by
  intro fuel
  induction fuel with
  | zero => intro b s' e h; cases h
  | succ fuel ih =>
    intro b s' e h
    simp only [Script.readInstructions] at h
    split at h
    · cases h
    · rcases hr : Script.readInstruction b with ⟨r, s1⟩
      cases r with
      | error e' => rw [Rd.bind_err hr] at h; cases h; exact readInstruction_err _ _ _ hr
      | ok i =>
        rw [Rd.bind_ok hr] at h
        rcases hr' : Script.readInstructions fuel s1 with ⟨r, s2⟩
        cases r with
        | error e' => rw [Rd.bind_err hr'] at h; cases h; exact ih _ _ _ hr'
        | ok is => rw [Rd.bind_ok hr'] at h; cases h

/-- `from_bytes` of a well-formed script. -/
theorem fromBytes_encodes (ws : List WireInstr) (b : Bytes) (h : Encodes ws b) :
    Script.fromBytes b = Script.create (ws.map ofWire) := by
  unfold Script.fromBytes Script.fromBuffer
  rw [Rd.bind_ok (readInstructions_encodes ws b h _ (le_refl _))]
  rfl

/-- Otherwise it is a truncation. -/
theorem fromBytes_cases (b : Bytes) : (∃ ws, Encodes ws b) ∨
    ((∀ ws, ¬ Encodes ws b) ∧ ∃ r q, Script.fromBytes b = .error (.insufficientData r q) ∧ r < q) := by
  rcases hr : Script.readInstructions b.length b with ⟨r, s1⟩
  cases r with
  | ok is =>
    obtain ⟨_, ws, _, h⟩ := readInstructions_ok _ _ _ _ (le_refl _) hr
    exact .inl ⟨ws, h⟩
  | error e =>
    refine .inr ⟨fun ws hw => ?_, ?_⟩
    · rw [readInstructions_encodes ws b hw _ (le_refl _)] at hr; cases hr
    · obtain ⟨r, q, rfl, hlt⟩ := readInstructions_err _ _ _ _ hr
      refine ⟨r, q, ?_, hlt⟩
      unfold Script.fromBytes Script.fromBuffer
      rw [Rd.bind_err hr]

/-! ## Serialising -/

/-- The script uses PUSHDATA somewhere. -/
def usesPushData (ws : List WireInstr) : Prop := ∃ w ∈ ws, 76 ≤ w.1.val ∧ w.1.val ≤ 78

theorem varPush_iff : ∀ b : Byte, (Opcode.mk b).isVarPush = true ↔ 76 ≤ b.val ∧ b.val ≤ 78 := by decide +kernel

theorem instr_toBytes (i : Instruction) (h : Wf i.wire) :
    (76 ≤ i.opcode.number.val ∧ i.opcode.number.val ≤ 78 ∧ i.toBytes = .error .typeError) ∨
    (¬ (76 ≤ i.opcode.number.val ∧ i.opcode.number.val ≤ 78) ∧ ∃ b, i.toBytes = .ok b ∧ IsWire i.wire b) := by
  obtain ⟨⟨op⟩, d⟩ := i
  by_cases hv : 76 ≤ op.val ∧ op.val ≤ 78
  · left
    have h1 := (varPush_iff op).2 hv
    have h2 : (Opcode.mk op).isConstPush = false := by
      by_contra hc
      have := const_not_var op (by simpa using hc)
      rw [this] at h1; cases h1
    refine ⟨hv.1, hv.2, ?_⟩
    simp [Instruction.toBytes, h1, h2]
  · right
    have h1 : (Opcode.mk op).isVarPush = false := by
      by_contra hc; exact hv ((varPush_iff op).1 (by simpa using hc))
    refine ⟨hv, ?_⟩
    simp only [Instruction.wire] at h ⊢
    cases d with
    | none =>
      simp only [Wf, Option.map_none] at h
      have hp := (pushKind_plain op).2 h
      rw [push_split] at hp
      simp only [Bool.or_eq_false_iff] at hp
      exact ⟨[op], by simp [Instruction.toBytes, hp.1, h1], by simp [IsWire]⟩
    | some d =>
      simp only [Wf, Option.map_some] at h
      rcases hk : pushKind op with n | w | _ <;> simp only [hk] at h
      · have hc : (Opcode.mk op).isConstPush = true := by
          rw [pushKind_const]
          rcases pushKind_cases op with h | h | ⟨_, h⟩ | ⟨_, h⟩ | ⟨_, h⟩ <;> rw [hk] at h <;> cases h; exact hk
        exact ⟨op :: d.val, by simp [Instruction.toBytes, hc], by simp [IsWire, hk]⟩
      · exfalso
        have : (Opcode.mk op).isVarPush = true := by
          rw [pushKind_var]
          rcases pushKind_cases op with h | h | h
          · simp [hk] at h
          · simp [hk] at h
          · exact h
        rw [this] at h1; cases h1

theorem bytesOf_spec (is : List Instruction) (h : ∀ i ∈ is, Wf i.wire) :
    (usesPushData (is.map Instruction.wire) ∧ Script.bytesOf is = .error .typeError) ∨
    (¬ usesPushData (is.map Instruction.wire) ∧
      ∃ b, Script.bytesOf is = .ok b ∧ Encodes (is.map Instruction.wire) b) := by
  induction is with
  | nil => right; exact ⟨by simp [usesPushData], [], rfl, .nil⟩
  | cons i is ih =>
    have ih := ih fun j hj => h j (List.mem_cons_of_mem _ hj)
    rcases instr_toBytes i (h i List.mem_cons_self) with ⟨h1, h2, he⟩ | ⟨hn, b, hb, hw⟩
    · left
      refine ⟨⟨i.wire, by simp, h1, h2⟩, by simp [Script.bytesOf, he]⟩
    · rcases ih with ⟨⟨w, hw1, hw2⟩, he⟩ | ⟨hn', bs, hbs, hws⟩
      · left
        exact ⟨⟨w, List.mem_cons_of_mem _ hw1, hw2⟩, by simp [Script.bytesOf, hb, he]⟩
      · right
        refine ⟨?_, b ++ bs, by simp [Script.bytesOf, hb, hbs], .cons (h i List.mem_cons_self) hw hws⟩
        rintro ⟨w, hw1, hw2⟩
        rcases List.mem_cons.1 hw1 with rfl | hw1
        · exact hn hw2
        · exact hn' ⟨w, hw1, hw2⟩

theorem encodes_wf {ws : List WireInstr} {b : Bytes} (h : Encodes ws b) : ∀ w ∈ ws, Wf w := by
  induction h with
  | nil => simp
  | cons hw _ _ ih => simp; exact ⟨hw, by simpa using ih⟩

theorem isWire_unique {w : WireInstr} {b b' : Bytes} (h : IsWire w b) (h' : IsWire w b') : b = b' := by
  obtain ⟨op, d⟩ := w
  cases d with
  | none => simp only [IsWire] at h h'; rw [h, h']
  | some d =>
    simp only [IsWire] at h h'
    rcases hk : pushKind op with n | w | _ <;> simp only [hk] at h h'
    · rw [h, h']
    · obtain ⟨c, hc, hv, rfl⟩ := h
      obtain ⟨c', hc', hv', rfl⟩ := h'
      rw [leValue_inj c c' (by omega) (by omega)]

/-- The wire format is a code: a list of instructions has one encoding. -/
theorem encodes_unique {ws : List WireInstr} {b b' : Bytes} (h : Encodes ws b) (h' : Encodes ws b') : b = b' := by
  induction h generalizing b' with
  | nil => cases h'; rfl
  | cons _ hb _ ih =>
    cases h' with
    | cons _ hb' h' => rw [isWire_unique hb hb', ih h']

theorem ofWire_injective : Function.Injective ofWire := fun a b h => by
  rw [← wire_ofWire a, h, wire_ofWire]

/-- … and a byte string decodes in at most one way. -/
theorem encodes_injective {ws ws' : List WireInstr} {b : Bytes} (h : Encodes ws b) (h' : Encodes ws' b) : ws = ws' := by
  have h1 := readInstructions_encodes ws b h _ (le_refl _)
  have h2 := readInstructions_encodes ws' b h' _ (le_refl _)
  rw [h1] at h2
  simp only [Prod.mk.injEq, Except.ok.injEq, and_true] at h2
  exact List.map_injective_iff.2 ofWire_injective h2

end Bitforge
