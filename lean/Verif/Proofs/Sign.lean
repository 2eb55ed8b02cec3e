import Verif.Props.Tx

/-! Helper lemmas on signing. -/

namespace Bitforge
open Spec
open Transaction (atIndex pyIndex)

theorem atIndex_get {α : Type} (f g : α → α) (i : Int) : ∀ (k : Nat) (xs : List α) (n : Nat),
    (atIndex f g i k xs)[n]? = xs[n]?.map fun x => if ((k + n : Nat) : Int) = i then f x else g x
  | _, [], n => by simp [atIndex]
  | k, x :: xs, 0 => by simp [atIndex]
  | k, x :: xs, n + 1 => by
    simp only [atIndex, List.getElem?_cons_succ]
    rw [atIndex_get f g i (k + 1) xs n, show k + 1 + n = k + (n + 1) by omega]

theorem atIndex_length {α : Type} (f g : α → α) (i : Int) : ∀ (k : Nat) (xs : List α),
    (atIndex f g i k xs).length = xs.length
  | _, [] => rfl
  | k, x :: xs => by simp [atIndex, atIndex_length f g i (k + 1) xs]

theorem atIndex_ne_nil {α : Type} (f g : α → α) (i : Int) (k : Nat) (xs : List α) :
    atIndex f g i k xs ≠ [] ↔ xs ≠ [] := by
  rw [← List.length_pos_iff, ← List.length_pos_iff, atIndex_length]

/-- The position that a Python index names. -/
def resolve (len : Nat) (i : Int) : Int := if i < 0 then i + len else i

theorem pyIndex_ok_iff {α : Type} (xs : List α) (i : Int) (x : α) :
    pyIndex xs i = .ok x ↔ 0 ≤ resolve xs.length i ∧ xs[(resolve xs.length i).toNat]? = some x := by
  unfold pyIndex
  show (match xs[(resolve xs.length i).toNat]? with
    | some x => if i < 0 ∧ i + xs.length < 0 then Except.error Err.indexError else .ok x
    | none => .error .indexError) = _ ↔ _
  have e : (i < 0 ∧ i + xs.length < 0) ↔ ¬ 0 ≤ resolve xs.length i := by
    unfold resolve; split <;> omega
  cases xs[(resolve xs.length i).toNat]? with
  | none => simp
  | some y =>
    simp only [e]
    by_cases h : 0 ≤ resolve xs.length i
    · rw [if_neg (by simpa using h)]; simp [h]
    · rw [if_pos h]; simp [h]

theorem pyIndex_error {α : Type} (xs : List α) (i : Int) (h : ¬ (-(xs.length : Int) ≤ i ∧ i < xs.length)) :
    pyIndex xs i = .error .indexError := by
  cases hp : pyIndex xs i with
  | error e =>
    unfold pyIndex at hp
    split at hp
    · split at hp
      · cases hp; rfl
      · cases hp
    · cases hp; rfl
  | ok x =>
    exfalso
    obtain ⟨h1, h2⟩ := (pyIndex_ok_iff _ _ _).1 hp
    have := (List.getElem?_eq_some_iff.1 h2).1
    unfold resolve at h1 this
    split at h1 <;> split at this <;> omega

theorem replaceInputs_ok (t : Transaction) (is : List Input) (hl : t.Legal) (hi : is ≠ []) :
    t.replaceInputs is = .ok { t with inputs := is } :=
  new_some is t.outputs t.lockTime t.version hi hl.2.1 ⟨hl.2.2.1, hl.2.2.2⟩

theorem replaceInputs_ok_iff (t : Transaction) (is : List Input) (u : Transaction) :
    t.replaceInputs is = .ok u ↔
      is ≠ [] ∧ t.outputs ≠ [] ∧ (0 ≤ t.lockTime ∧ t.lockTime < 2 ^ 32) ∧ u = { t with inputs := is } := by
  constructor
  · intro h
    have hl := new_legal h
    obtain ⟨⟨hi, e1⟩, ⟨ho, e2⟩, hb, e3, e4⟩ := (C33_accepts_iff _ _ _ _ _).1 h
    have e1 : is = u.inputs := List.map_injective_iff.2 (Option.some_injective _) e1
    have e2 : t.outputs = u.outputs := List.map_injective_iff.2 (Option.some_injective _) e2
    refine ⟨by simpa using hi, by simpa using ho, by omega, ?_⟩
    obtain ⟨a, b, c, d⟩ := u
    simp only at e1 e2 e3 e4
    rw [e1, e2, e3, e4]
  · rintro ⟨hi, ho, hl, rfl⟩
    exact new_some is t.outputs t.lockTime t.version hi ho hl

theorem payload_legal {H : Hashes} {t : Transaction} {i st : Int} {p : Bytes} (h : t.payload H i st = .ok p) :
    t.Legal := by
  unfold Transaction.payload at h
  split at h
  · cases h
  · next hr =>
    obtain ⟨h1, h2, h3, _⟩ := (replaceInputs_ok_iff _ _ _).1 hr
    exact ⟨(atIndex_ne_nil _ _ _ _ _).1 h1, h2, h3⟩

/-- What a successful call of `sign` does. -/
theorem sign_ok_iff (H : Hashes) (S : Signer) (t u : Transaction) (ks : List PrivateKey) (i st : Int) :
    t.sign H S ks i st = .ok u ↔ ∃ p x y, t.payload H i st = .ok p ∧ pyIndex t.inputs i = .ok x ∧
      x.sign S ks p st = .ok y ∧ u = { t with inputs := atIndex (fun _ => y) (fun x => x) i 0 t.inputs } := by
  constructor
  · intro h
    unfold Transaction.sign at h
    split at h
    · cases h
    · next p hp =>
      split at h
      · cases h
      · next x hx =>
        split at h
        · cases h
        · next y hy =>
          obtain ⟨_, _, _, rfl⟩ := (replaceInputs_ok_iff _ _ _).1 h
          exact ⟨p, x, y, hp, hx, hy, rfl⟩
  · rintro ⟨p, x, y, hp, hx, hy, rfl⟩
    unfold Transaction.sign
    rw [hp]
    simp only [hx, hy]
    have hl := payload_legal hp
    exact replaceInputs_ok t _ hl ((atIndex_ne_nil _ _ _ _ _).2 hl.1)

/-- Signing an input only replaces its script, and makes it a plain Input. -/
theorem input_sign_ok {S : Signer} {x y : Input} {ks : List PrivateKey} {p : Bytes} {st : Int}
    (h : x.sign S ks p st = .ok y) : x.cls ≠ .generic ∧ y = x.replaceScript y.script := by
  have ha : ∀ {y}, x.signAddress S ks p st = .ok y → y = x.replaceScript y.script := by
    intro y h
    unfold Input.signAddress at h
    split at h
    · split at h
      · cases h
      · split at h
        · cases h
        · split at h
          · cases h
          · cases h; rfl
    · cases h
  have hs : ∀ {y}, x.signScript S ks p st = .ok y → y = x.replaceScript y.script := by
    intro y h
    unfold Input.signScript at h
    split at h
    · cases h
    · split at h
      · cases h
      · cases h; rfl
  unfold Input.sign at h
  cases hc : x.cls <;> rw [hc] at h
  · cases h
  · exact ⟨by simp, ha h⟩
  · exact ⟨by simp, hs h⟩
  · exact ⟨by simp, hs h⟩

theorem atIndex_negative {α : Type} (f : α → α) (i : Int) (h : i < 0) (k : Nat) (xs : List α) :
    atIndex f (fun x => x) i k xs = xs := by
  apply List.ext_getElem?
  intro n
  rw [atIndex_get]
  have : ¬ ((k + n : Nat) : Int) = i := by omega
  simp only [if_neg this, Option.map_id_fun', id]

theorem pyIndex_eq {α : Type} (xs : List α) (i : Int) : pyIndex xs i =
    if 0 ≤ resolve xs.length i then
      (match xs[(resolve xs.length i).toNat]? with | some x => .ok x | none => .error .indexError)
    else .error .indexError := by
  cases hp : pyIndex xs i with
  | ok x =>
    obtain ⟨h1, h2⟩ := (pyIndex_ok_iff _ _ _).1 hp
    rw [if_pos h1, h2]
  | error e =>
    have he : e = .indexError := by
      unfold pyIndex at hp
      split at hp
      · split at hp
        · cases hp; rfl
        · cases hp
      · cases hp; rfl
    subst he
    split
    · next h1 =>
      split
      · next x hx => rw [(pyIndex_ok_iff _ _ _).2 ⟨h1, hx⟩] at hp; cases hp
      · rfl
    · rfl

theorem resolve_ne {len : Nat} {i j : Int} (h : resolve len i ≠ resolve len j) : i ≠ j := fun e => h (e ▸ rfl)

/-- Changing the script of the input at `i` does not affect what is signed at `j`. -/
theorem payload_other (H : Hashes) (t : Transaction) (i j st : Int) (x y : Input) (hx : pyIndex t.inputs i = .ok x)
    (hy : y = x.replaceScript y.script) (hij : resolve t.inputs.length i ≠ resolve t.inputs.length j) :
    ({ t with inputs := atIndex (fun _ => y) (fun x => x) i 0 t.inputs } : Transaction).payload H j st =
      t.payload H j st ∧
    pyIndex (atIndex (fun _ => y) (fun x => x) i 0 t.inputs) j = pyIndex t.inputs j := by
  obtain ⟨h0, hx⟩ := (pyIndex_ok_iff _ _ _).1 hx
  have e : atIndex (fun x => x) Input.removeScript j 0 (atIndex (fun _ => y) (fun x => x) i 0 t.inputs) =
      atIndex (fun x => x) Input.removeScript j 0 t.inputs := by
    apply List.ext_getElem?
    intro n
    rw [atIndex_get, atIndex_get, atIndex_get, Option.map_map]
    cases hn : t.inputs[n]? with
    | none => rfl
    | some z =>
      simp only [Option.map_some, Function.comp, Option.some.injEq, Nat.zero_add]
      have hlt := (List.getElem?_eq_some_iff.1 hn).1
      by_cases h1 : (n : Int) = i
      · have e1 : (resolve t.inputs.length i).toNat = n := by unfold resolve; rw [if_neg (by omega)]; omega
        rw [e1, hn] at hx
        cases hx
        by_cases h2 : (n : Int) = j
        · exact absurd (by rw [← h1, ← h2] : resolve t.inputs.length i = resolve t.inputs.length j) hij
        · rw [if_pos h1, if_neg h2, if_neg h2, hy]; rfl
      · rw [if_neg h1]
  constructor
  · unfold Transaction.payload Transaction.replaceInputs
    simp only [e]
  · rw [pyIndex_eq, pyIndex_eq, atIndex_length, atIndex_get]
    by_cases h : 0 ≤ resolve t.inputs.length j
    · rw [if_pos h, if_pos h]
      cases hn : t.inputs[(resolve t.inputs.length j).toNat]? with
      | none => rfl
      | some z =>
        have h1 : ¬ ((0 + (resolve t.inputs.length j).toNat : Nat) : Int) = i := by
          intro h1
          apply hij
          rw [← h1]
          unfold resolve at h ⊢
          rw [if_neg (by omega)]
          omega
        simp only [Option.map_some, if_neg h1]
    · rw [if_neg h, if_neg h]

theorem atIndex_comm {α : Type} (y z : α) (i j : Int) (h : i ≠ j) (xs : List α) :
    atIndex (fun _ => z) (fun x => x) j 0 (atIndex (fun _ => y) (fun x => x) i 0 xs) =
      atIndex (fun _ => y) (fun x => x) i 0 (atIndex (fun _ => z) (fun x => x) j 0 xs) := by
  apply List.ext_getElem?
  intro n
  rw [atIndex_get, atIndex_get, atIndex_get, atIndex_get, Option.map_map, Option.map_map]
  congr 1
  funext x
  simp only [Function.comp]
  by_cases h1 : ((0 + n : Nat) : Int) = i
  · have h2 : ¬ ((0 + n : Nat) : Int) = j := fun h2 => h (h1.symm.trans h2)
    rw [if_pos h1, if_neg h2, if_pos h1]
  · rw [if_neg h1, if_neg h1]

/-! ## The signed payload on the wire -/

theorem shows_removeScript {i : Input} {w : WireIn} (h : i.Shows w) : i.removeScript.Shows { w with script := [] } :=
  ⟨h.1, h.2.1, .nil, h.2.2.2⟩

theorem shows_blank (n : Nat) : ∀ {xs : List Input} {ws : List WireIn}, List.Forall₂ Input.Shows xs ws → ∀ k,
    List.Forall₂ Input.Shows (atIndex (fun x => x) Input.removeScript n k xs)
      (ws.mapIdx fun i x => if k + i = n then x else { x with script := [] }) := by
  intro xs ws h
  induction h with
  | nil => intro k; exact .nil
  | @cons x w xs ws a _ ih =>
    intro k
    rw [List.mapIdx_cons]
    unfold atIndex
    refine .cons ?_ ?_
    · by_cases hk : k = n
      · rw [if_pos (by exact_mod_cast hk), if_pos (by omega)]; exact a
      · rw [if_neg (by exact_mod_cast hk), if_neg (by omega)]; exact shows_removeScript a
    · have := ih (k + 1)
      simp only [show ∀ i, k + 1 + i = k + (i + 1) by omega] at this
      exact this

theorem tx_shows_blank {t : Transaction} {w : WireTx} (h : t.Shows w) (n : Nat) :
    ({ t with inputs := atIndex (fun x => x) Input.removeScript n 0 t.inputs } : Transaction).Shows (w.blank n) := by
  obtain ⟨h1, h2, h3, h4⟩ := h
  refine ⟨h1, ?_, h3, h4⟩
  have := shows_blank n h2 0
  simp only [Nat.zero_add] at this
  exact this

theorem fits_blank {w : WireTx} (h : w.Fits) (n : Nat) : (w.blank n).Fits := by
  obtain ⟨h1, h2, h3, h4, h5, h6⟩ := h
  refine ⟨h1, h2, ?_, h4, by simpa [WireTx.blank] using h5, h6⟩
  intro i hi
  obtain ⟨k, hk, rfl⟩ := List.mem_mapIdx.1 hi
  have := h3 _ (List.getElem_mem hk)
  split
  · exact this
  · exact ⟨this.1, this.2.1, by show (0 : Nat) < _; norm_num, this.2.2.2⟩

/-- The script that is signed at `n`, or an output script, has a PUSHDATA instruction. -/
def Transaction.BlocksPayload (t : Transaction) (n : Nat) : Prop :=
  (∃ x, t.inputs[n]? = some x ∧ x.script.HasPushData) ∨ ∃ o ∈ t.outputs, o.script.HasPushData

theorem hasPushData_blank (t : Transaction) (n : Nat) :
    ({ t with inputs := atIndex (fun x => x) Input.removeScript n 0 t.inputs } : Transaction).HasPushData ↔
      t.BlocksPayload n := by
  unfold Transaction.HasPushData Transaction.BlocksPayload
  refine or_congr ?_ Iff.rfl
  simp only
  constructor
  · rintro ⟨i, hi, hp⟩
    obtain ⟨m, hm⟩ := List.mem_iff_getElem?.1 hi
    rw [atIndex_get] at hm
    cases hx : t.inputs[m]? with
    | none => rw [hx] at hm; cases hm
    | some x =>
      rw [hx] at hm
      simp only [Option.map_some, Option.some.injEq, Nat.zero_add, Nat.cast_inj] at hm
      by_cases h : m = n
      · rw [if_pos h] at hm; subst hm h; exact ⟨_, hx, hp⟩
      · rw [if_neg h] at hm
        subst hm
        obtain ⟨w, hw, _⟩ := hp
        cases hw
  · rintro ⟨x, hx, hp⟩
    refine ⟨x, List.mem_iff_getElem?.2 ⟨n, ?_⟩, hp⟩
    rw [atIndex_get, hx]
    simp

open Classical in
theorem payload_eq (H : Hashes) (t : Transaction) (w : WireTx) (hl : t.Legal) (h : t.Shows w) (n : Nat) (st : Int) :
    t.payload H n st = if t.BlocksPayload n then .error .typeError
      else .ok (H.sha256 (H.sha256 ((w.blank n).bytes ++ le 4 st.toNat))) := by
  unfold Transaction.payload
  rw [replaceInputs_ok t _ hl ((atIndex_ne_nil _ _ _ _ _).2 hl.1)]
  simp only []
  rw [tx_toBytes _ _ (tx_shows_blank h n)]
  by_cases hp : t.BlocksPayload n
  · rw [if_pos hp, if_pos ((hasPushData_blank t n).2 hp)]
  · rw [if_neg hp, if_neg fun h => hp ((hasPushData_blank t n).1 h), encodeInt_le]

/-! ## Scripts made of opcodes and pushes -/

theorem instruction_push (b : Bytes) (i : Instruction) (h : (SchemItem.bytes ⟨.str, b⟩).instruction = .ok i) :
    (76 ≤ i.opcode.number.val ∧ i.opcode.number.val ≤ 78 ↔ 75 < b.length) ∧ 1 ≤ b.length ∧ b.length < 2 ^ 32 := by
  simp only [SchemItem.instruction, bind, Except.bind] at h
  split at h
  · cases h
  · next o ho =>
    rw [instr_make_ok_iff] at h
    obtain ⟨rfl, _⟩ := h
    rw [pushFor_table] at ho
    split at ho
    · cases ho
    · split at ho
      · cases ho
        rw [Int.toNat_natCast, mk_fin _ (by omega)]
        exact ⟨by simp only; omega, by omega, by omega⟩
      · split at ho
        · cases ho
          rw [show ((Opcode.num 76).number.val) = 76 from rfl]
          exact ⟨by omega, by omega, by omega⟩
        · split at ho
          · cases ho
            rw [show ((Opcode.num 77).number.val) = 77 from rfl]
            exact ⟨by omega, by omega, by omega⟩
          · split at ho
            · cases ho
              rw [show ((Opcode.num 78).number.val) = 78 from rfl]
              exact ⟨by omega, by omega, by omega⟩
            · cases ho

theorem plain_not_pushData : ∀ b : Byte, pushKind b = .plain → ¬ (76 ≤ b.val ∧ b.val ≤ 78) := by decide +kernel

/-- Schematics of opcodes and byte strings. -/
def SchemItem.Simple : SchemItem → Prop
  | .opcode _ => True
  | .bytes _ => True
  | _ => False

/-- The instructions of a simple schematic are well-formed, and use PUSHDATA iff a push is longer than 75 bytes. -/
theorem toInstructions_simple : ∀ (l : List SchemItem) (is : List Instruction), (∀ x ∈ l, x.Simple) →
    toInstructions l = .ok is → (∀ i ∈ is, Wf i.wire) ∧
      ((∃ w ∈ is.map Instruction.wire, 76 ≤ w.1.val ∧ w.1.val ≤ 78) ↔ ∃ d, SchemItem.bytes d ∈ l ∧ 75 < d.val.length)
  | [], is, _, h => by
    rw [toInstructions_nil] at h; subst h; simp
  | x :: l, is, hs, h => by
    obtain ⟨i, js, h1, h2, rfl⟩ := (toInstructions_cons _ _ _).1 h
    obtain ⟨w1, w2⟩ := toInstructions_simple l js (fun y hy => hs y (by simp [hy])) h2
    have hx : Wf i.wire ∧ ((76 ≤ i.opcode.number.val ∧ i.opcode.number.val ≤ 78) ↔
        ∃ d, SchemItem.bytes d = x ∧ 75 < d.val.length) := by
      have := hs x (by simp)
      match x, h1, this with
      | .opcode o, h1, _ =>
        simp only [SchemItem.instruction] at h1
        rw [instr_make_ok_iff] at h1
        obtain ⟨rfl, hw⟩ := h1
        refine ⟨hw, ?_⟩
        have := plain_not_pushData _ (show pushKind o.number = .plain from hw)
        simp only [reduceCtorEq, false_and, exists_false, iff_false]
        exact this
      | .bytes ⟨.bytearray, b⟩, h1, _ => cases h1
      | .bytes ⟨.str, b⟩, h1, _ =>
        refine ⟨(instruction_bytes_ok _ _ h1).2.2.2, ?_⟩
        rw [(instruction_push b i h1).1]
        constructor
        · intro h; exact ⟨_, rfl, h⟩
        · rintro ⟨d, hd, h⟩; cases hd; exact h
    refine ⟨?_, ?_⟩
    · intro j hj
      rcases List.mem_cons.1 hj with rfl | hj
      · exact hx.1
      · exact w1 j hj
    · rw [List.map_cons]
      simp only [List.mem_cons, exists_eq_or_imp, w2, or_and_right, exists_or]
      rw [show (∃ w, w = i.wire ∧ 76 ≤ w.1.val ∧ w.1.val ≤ 78) ↔ (76 ≤ i.opcode.number.val ∧ i.opcode.number.val ≤ 78)
        from ⟨fun ⟨w, hw, h⟩ => by rw [hw] at h; exact h, fun h => ⟨_, rfl, h⟩⟩]
      exact or_congr hx.2 Iff.rfl

theorem ofSchematic_simple (c : ScriptClass) (l : List SchemItem) (s : Script) (hl : ∀ x ∈ l, x.Simple)
    (h : ofSchematic c l = .ok s) :
    s.WellFormed ∧ (s.HasPushData ↔ ∃ d, SchemItem.bytes d ∈ l ∧ 75 < d.val.length) :=
  toInstructions_simple l s.instructions hl (ofSchematic_ok _ _ _ h).2

theorem isWire_exists (w : WireInstr) (h : Wf w) : ∃ b, IsWire w b := by
  obtain ⟨op, d⟩ := w
  cases d with
  | none => exact ⟨[op], rfl⟩
  | some d =>
    simp only [Wf] at h
    simp only [IsWire]
    rcases hk : pushKind op with n | w | _ <;> simp only [hk] at h ⊢
    · exact ⟨_, rfl⟩
    · exact ⟨_, le w d.length, le_length _ _, by rw [leValue_le, Nat.mod_eq_of_lt h], rfl⟩

theorem encodes_exists : ∀ ws : List WireInstr, (∀ w ∈ ws, Wf w) → ∃ b, Encodes ws b
  | [], _ => ⟨[], .nil⟩
  | w :: ws, h => by
    obtain ⟨b, hb⟩ := isWire_exists w (h w (by simp))
    obtain ⟨bs, hbs⟩ := encodes_exists ws fun x hx => h x (by simp [hx])
    exact ⟨b ++ bs, .cons (h w (by simp)) hb hbs⟩

theorem wellFormed_encodes (s : Script) (h : s.WellFormed) : ∃ b, Encodes s.wires b := by
  refine encodes_exists _ fun w hw => ?_
  obtain ⟨i, hi, rfl⟩ := List.mem_map.1 hw
  exact h i hi

/-- The private keys that the constructor makes. -/
def PrivateKey.Good (k : PrivateKey) : Prop := 0 < k.secret ∧ k.secret < secpN

theorem good_public (k : PrivateKey) (h : k.Good) : ∃ p, k.toPublicKey = .ok p ∧ p.Valid ∧ p.network = k.network ∧
    p.compressed = k.compressed := by
  have hm : PrivateKey.make k.secret (.network k.network) k.compressed = .ok k := by
    rw [make_network, if_pos ⟨h.1, h.2⟩]
  obtain ⟨x, y, hk, hx, hy, hon, _⟩ := C20_public_key _ _ _ _ hm
  exact ⟨_, hk, ⟨hon, hx, hy⟩, rfl, rfl⟩

theorem signature_ok {S : Signer} {n : Nat} {k : PrivateKey} {p : Bytes} {st : Int} {d : Data}
    (h : Input.signature S n k p st = .ok d) : ∃ s c, S n k p = .ok s ∧ 0 ≤ st ∧ st < 256 ∧ c = byte st.toNat ∧
      d = ⟨.str, s ++ [c]⟩ := by
  unfold Input.signature at h
  split at h
  · cases h
  · next s hs =>
    split at h
    · cases h
    · next c hc =>
      cases h
      unfold chrByte at hc
      split at hc
      · next hb => cases hc; exact ⟨s, _, hs, hb.1, hb.2, rfl, rfl⟩
      · cases hc

end Bitforge
