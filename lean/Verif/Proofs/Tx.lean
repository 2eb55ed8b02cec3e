import Verif.Spec.Tx
import Verif.Transaction
import Verif.Proofs.Classify
import Verif.Proofs.Hex

/-! Helper lemmas on transactions. -/

namespace Bitforge
open Spec

theorem le_length : ∀ w n, (le w n).length = w
  | 0, _ => rfl
  | w + 1, n => by simp [le, le_length w]

theorem leValue_le : ∀ w n, leValue (le w n) = n % 256 ^ w
  | 0, n => by simp [le, leValue, Nat.mod_one]
  | w + 1, n => by
    simp only [le, leValue, leValue_le w]
    rw [pow_succ', Nat.mod_mul]

theorem encodeInt_le (n : Int) (w : Nat) : encodeInt n false (some w) = le w n.toNat := by
  apply leValue_inj
  · rw [encodeInt_little_length, le_length]
  · rw [leValue_encodeInt, leValue_le]

theorem encodeInt_le' (n : Nat) (w : Nat) : encodeInt (n : Int) false (some w) = le w n := encodeInt_le n w

theorem encodeVarint_compact (n : Nat) : encodeVarint n = compactSize n := by
  rw [encodeVarint_nat]
  unfold compactSize
  by_cases h1 : n < 253
  · rw [if_pos h1, dif_pos h1]
    congr 1
    exact Fin.ext (by rw [byte_val]; show n % 256 = n; omega)
  · rw [if_neg h1, dif_neg h1]
    by_cases h2 : n ≤ 0xFFFF
    · have a : n < 2 ^ 16 := by omega
      rw [if_pos h2, if_pos a, encodeInt_le']
    · have a : ¬ n < 2 ^ 16 := by omega
      rw [if_neg h2, if_neg a]
      by_cases h3 : n ≤ 0xFFFFFFFF
      · have b : n < 2 ^ 32 := by omega
        rw [if_pos h3, if_pos b, encodeInt_le']
      · have b : ¬ n < 2 ^ 32 := by omega
        rw [if_neg h3, if_neg b, encodeInt_le']

theorem hexText_eq (b : Bytes) : hexText b = encodeHex b := by
  have key : ∀ n : Fin 16, (if n.val < 10 then Char.ofNat (48 + n.val) else Char.ofNat (87 + n.val)) = hexDigit n.val := by
    decide
  unfold hexText encodeHex
  rw [List.flatMap_def]
  simp only []
  congr 1
  apply List.map_congr_left
  intro x _
  have hx := x.isLt
  simp only [key ⟨x.val / 16, by omega⟩, key ⟨x.val % 16, by omega⟩]

theorem readVarint_compact (n : Nat) (h : n < 2 ^ 64) (rest : Bytes) :
    Buffer.readVarint (compactSize n ++ rest) = (.ok n, rest) := by
  rw [← encodeVarint_compact]; exact readVarint_encodeVarint n h rest

/-! ## The specification is a prefix code -/

theorem le_append_inj {w n m : Nat} {a b : Bytes} (h : le w n ++ a = le w m ++ b) (hn : n < 256 ^ w) (hm : m < 256 ^ w) :
    n = m ∧ a = b := by
  obtain ⟨h1, h2⟩ := List.append_inj h (by rw [le_length, le_length])
  have := congrArg leValue h1
  rw [leValue_le, leValue_le, Nat.mod_eq_of_lt hn, Nat.mod_eq_of_lt hm] at this
  exact ⟨this, h2⟩

theorem compactSize_append_inj {n m : Nat} {a b : Bytes} (h : compactSize n ++ a = compactSize m ++ b)
    (hn : n < 2 ^ 64) (hm : m < 2 ^ 64) : n = m ∧ a = b := by
  have h1 := readVarint_compact n hn a
  rw [h, readVarint_compact m hm b] at h1
  simp only [Prod.mk.injEq, Except.ok.injEq] at h1
  exact ⟨h1.1.symm, h1.2.symm⟩

theorem wireIn_append_inj {i j : WireIn} {a b : Bytes} (h : i.bytes ++ a = j.bytes ++ b) (hi : i.Fits) (hj : j.Fits) :
    i = j ∧ a = b := by
  obtain ⟨t, n, s, q⟩ := i
  obtain ⟨t', n', s', q'⟩ := j
  obtain ⟨h1, h2, h3, h4⟩ := hi
  obtain ⟨h1', h2', h3', h4'⟩ := hj
  simp only at h1 h2 h3 h4 h1' h2' h3' h4'
  simp only [WireIn.bytes, List.append_assoc] at h
  obtain ⟨rfl, g1⟩ := List.append_inj h (h1.trans h1'.symm)
  obtain ⟨rfl, g2⟩ := le_append_inj g1 (by norm_num; omega) (by norm_num; omega)
  obtain ⟨hl, g3⟩ := compactSize_append_inj g2 h3 h3'
  obtain ⟨rfl, g4⟩ := List.append_inj g3 hl
  obtain ⟨rfl, g5⟩ := le_append_inj g4 (by norm_num; omega) (by norm_num; omega)
  exact ⟨rfl, g5⟩

theorem wireOut_append_inj {i j : WireOut} {a b : Bytes} (h : i.bytes ++ a = j.bytes ++ b) (hi : i.Fits)
    (hj : j.Fits) : i = j ∧ a = b := by
  obtain ⟨n, s⟩ := i
  obtain ⟨n', s'⟩ := j
  obtain ⟨h1, h2⟩ := hi
  obtain ⟨h1', h2'⟩ := hj
  simp only at h1 h2 h1' h2'
  simp only [WireOut.bytes, List.append_assoc] at h
  obtain ⟨rfl, g1⟩ := le_append_inj h (by norm_num; omega) (by norm_num; omega)
  obtain ⟨hl, g2⟩ := compactSize_append_inj g1 h2 h2'
  obtain ⟨rfl, g3⟩ := List.append_inj g2 hl
  exact ⟨rfl, g3⟩

theorem flatten_append_inj {α : Type} (f : α → Bytes) (P : α → Prop)
    (hf : ∀ x y a b, f x ++ a = f y ++ b → P x → P y → x = y ∧ a = b) :
    ∀ (xs ys : List α) (a b : Bytes), xs.length = ys.length → (∀ x ∈ xs, P x) → (∀ y ∈ ys, P y) →
      (xs.map f).flatten ++ a = (ys.map f).flatten ++ b → xs = ys ∧ a = b := by
  intro xs
  induction xs with
  | nil =>
    intro ys a b hl _ _ h
    cases ys with
    | nil => exact ⟨rfl, by simpa using h⟩
    | cons y ys => simp at hl
  | cons x xs ih =>
    intro ys a b hl hx hy h
    cases ys with
    | nil => simp at hl
    | cons y ys =>
      simp only [List.map_cons, List.flatten_cons, List.append_assoc] at h
      obtain ⟨rfl, g1⟩ := hf _ _ _ _ h (hx x (by simp)) (hy y (by simp))
      obtain ⟨rfl, g2⟩ := ih ys a b (by simpa using hl) (fun z hz => hx z (by simp [hz]))
        (fun z hz => hy z (by simp [hz])) g1
      exact ⟨rfl, g2⟩

theorem wireTx_append_inj {t u : WireTx} {a b : Bytes} (h : t.bytes ++ a = u.bytes ++ b) (ht : t.Fits) (hu : u.Fits) :
    t = u ∧ a = b := by
  obtain ⟨v, is, os, l⟩ := t
  obtain ⟨v', is', os', l'⟩ := u
  obtain ⟨h1, h2, h3, h4, h5, h6⟩ := ht
  obtain ⟨h1', h2', h3', h4', h5', h6'⟩ := hu
  simp only at h1 h2 h3 h4 h5 h6 h1' h2' h3' h4' h5' h6'
  simp only [WireTx.bytes, List.append_assoc] at h
  obtain ⟨rfl, g1⟩ := le_append_inj h (by norm_num; omega) (by norm_num; omega)
  obtain ⟨hl, g2⟩ := compactSize_append_inj g1 (by norm_num; omega) (by norm_num; omega)
  obtain ⟨rfl, g3⟩ := flatten_append_inj _ _ (fun _ _ _ _ h hx hy => wireIn_append_inj h hx hy) _ _ _ _ hl h3 h3' g2
  obtain ⟨hl, g4⟩ := compactSize_append_inj g3 (by norm_num; omega) (by norm_num; omega)
  obtain ⟨rfl, g5⟩ := flatten_append_inj _ _ (fun _ _ _ _ h hx hy => wireOut_append_inj h hx hy) _ _ _ _ hl h4 h4' g4
  obtain ⟨rfl, g6⟩ := le_append_inj g5 (by norm_num; omega) (by norm_num; omega)
  exact ⟨rfl, g6⟩

/-! ## The wire view of the objects -/

/-- The wire view of a script. -/
def Script.wires (s : Script) : List WireInstr := s.instructions.map Instruction.wire

/-- The input object `i` stands for the wire input `w`. -/
def Input.Shows (i : Input) (w : WireIn) : Prop :=
  i.txId = hexText w.txid.reverse ∧ i.txoIndex = w.index ∧ Encodes i.script.wires w.script ∧ i.seqNumber = w.sequence

def Output.Shows (o : Output) (w : WireOut) : Prop := o.amount = w.amount ∧ Encodes o.script.wires w.script

def Transaction.Shows (t : Transaction) (w : WireTx) : Prop :=
  t.version = w.version ∧ List.Forall₂ Input.Shows t.inputs w.inputs ∧ List.Forall₂ Output.Shows t.outputs w.outputs ∧
    t.lockTime = w.lockTime

theorem script_toBytes (s : Script) (b : Bytes) (h : Encodes s.wires b) :
    s.toBytes = if ∃ w ∈ s.wires, 76 ≤ w.1.val ∧ w.1.val ≤ 78 then .error .typeError else .ok b := by
  rcases bytesOf_spec s.instructions (fun i hi => encodes_wf h _ (List.mem_map_of_mem hi)) with ⟨hp, he⟩ | ⟨hp, b', he, hb⟩
  · exact he.trans (if_pos hp).symm
  · rw [encodes_unique h hb]; exact he.trans (if_neg hp).symm

theorem script_fromBytes (ws : List WireInstr) (b : Bytes) (h : Encodes ws b) :
    (¬ Crashes (shape ws) ∧ ∃ s, Script.fromBytes b = .ok s ∧ s.wires = ws ∧ Script.classify s.instructions = .ok s.cls) ∨
    (Crashes (shape ws) ∧ Script.fromBytes b = .error .attributeError) := by
  have hwire : (ws.map ofWire).map Instruction.wire = ws := by
    rw [List.map_map]; conv_rhs => rw [← List.map_id ws]
    exact List.map_congr_left fun w _ => wire_ofWire w
  rw [fromBytes_encodes ws b h]
  unfold Script.create
  rcases classify_spec (ws.map ofWire) with ⟨hc, he⟩ | ⟨hc, c, he, _⟩
  · right; rw [hwire] at hc; rw [he]; exact ⟨hc, rfl⟩
  · left; rw [hwire] at hc; rw [he]; exact ⟨hc, _, rfl, hwire, he⟩

/-- The script has a PUSHDATA instruction. -/
def Script.HasPushData (s : Script) : Prop := ∃ w ∈ s.wires, 76 ≤ w.1.val ∧ w.1.val ≤ 78

instance (s : Script) : Decidable s.HasPushData := by unfold Script.HasPushData; infer_instance

theorem input_toBytes (i : Input) (w : WireIn) (h : i.Shows w) :
    i.toBytes = if i.script.HasPushData then .error .typeError else .ok w.bytes := by
  obtain ⟨h1, h2, h3, h4⟩ := h
  unfold Input.toBytes
  rw [script_toBytes _ _ h3]
  show (match (if i.script.HasPushData then .error .typeError else .ok w.script : Except Err Bytes) with
    | .error e => _ | .ok script => _) = _
  by_cases hp : i.script.HasPushData
  · rw [if_pos hp, if_pos hp]
  · rw [if_neg hp, if_neg hp, h1, hexText_eq, decodeHex_encodeHex]
    simp only [Buffer.write, List.nil_append, List.reverse_reverse, h2, h4, encodeInt_le', encodeVarint_compact]
    rfl

theorem output_toBytes (o : Output) (w : WireOut) (h : o.Shows w) :
    o.toBytes = if o.script.HasPushData then .error .typeError else .ok w.bytes := by
  obtain ⟨h1, h2⟩ := h
  unfold Output.toBytes
  rw [script_toBytes _ _ h2]
  show (match (if o.script.HasPushData then .error .typeError else .ok w.script : Except Err Bytes) with
    | .error e => _ | .ok script => _) = _
  by_cases hp : o.script.HasPushData
  · rw [if_pos hp, if_pos hp]
  · rw [if_neg hp, if_neg hp]
    simp only [Buffer.write, List.nil_append, h1, encodeInt_le', encodeVarint_compact]
    rfl

theorem writeAll_eq {α β : Type} (f : α → Except Err Bytes) (g : β → Bytes) (R : α → β → Prop) (bad : α → Prop)
    [DecidablePred bad] (e : Err) (hf : ∀ x y, R x y → f x = if bad x then .error e else .ok (g y)) :
    ∀ (xs : List α) (ys : List β) (buf : Bytes), List.Forall₂ R xs ys →
      Transaction.writeAll f xs buf =
        if ∃ x ∈ xs, bad x then .error e else .ok (buf ++ (ys.map g).flatten) := by
  intro xs
  induction xs with
  | nil => intro ys buf h; cases h; simp [Transaction.writeAll]
  | cons x xs ih =>
    intro ys buf h
    cases h with
    | @cons _ y _ ys h1 h2 =>
      simp only [Transaction.writeAll, hf x y h1]
      by_cases hb : bad x
      · simp [hb]
      · rw [if_neg hb]
        simp only []
        rw [ih ys _ h2]
        simp [hb, Buffer.write]

/-- Some script of the transaction has a PUSHDATA instruction. -/
def Transaction.HasPushData (t : Transaction) : Prop :=
  (∃ i ∈ t.inputs, i.script.HasPushData) ∨ (∃ o ∈ t.outputs, o.script.HasPushData)

instance (t : Transaction) : Decidable t.HasPushData := by unfold Transaction.HasPushData; infer_instance

theorem tx_toBytes (t : Transaction) (w : WireTx) (h : t.Shows w) :
    t.toBytes = if t.HasPushData then .error .typeError else .ok w.bytes := by
  obtain ⟨h1, h2, h3, h4⟩ := h
  unfold Transaction.toBytes
  simp only []
  rw [writeAll_eq Input.toBytes WireIn.bytes Input.Shows (fun i => i.script.HasPushData) .typeError
    (fun i w h => input_toBytes i w h) _ _ _ h2]
  by_cases hi : ∃ i ∈ t.inputs, i.script.HasPushData
  · rw [if_pos hi, if_pos (.inl hi)]
  · rw [if_neg hi]
    simp only []
    rw [writeAll_eq Output.toBytes WireOut.bytes Output.Shows (fun i => i.script.HasPushData) .typeError
      (fun i w h => output_toBytes i w h) _ _ _ h3]
    by_cases ho : ∃ i ∈ t.outputs, i.script.HasPushData
    · rw [if_pos ho, if_pos (.inr ho)]
    · rw [if_neg ho, if_neg (by rintro (h | h); exact hi h; exact ho h)]
      simp only [Buffer.write, List.nil_append, h1, h4, encodeInt_le', encodeVarint_compact, h2.length_eq, h3.length_eq]
      rfl

/-! ## Reading -/

theorem read_le (w n : Nat) (rest : Bytes) : Buffer.read w (le w n ++ rest) = (.ok (le w n), rest) :=
  read_append' w _ rest (le_length w n)

theorem decodeInt_le (w n : Nat) (h : n < 256 ^ w) : decodeInt (le w n) (bigEndian := false) = n := by
  rw [decodeInt_little, leValue_le, Nat.mod_eq_of_lt h]

theorem input_fromBuffer (cls : InputClass) (w : WireIn) (hw : w.Fits) (ws : List WireInstr) (he : Encodes ws w.script)
    (rest : Bytes) :
    (¬ Crashes (shape ws) ∧ ∃ i, Input.fromBuffer cls (w.bytes ++ rest) = (.ok i, rest) ∧ i.Shows w ∧ i.cls = cls ∧
      i.script.wires = ws) ∨
    (Crashes (shape ws) ∧ (Input.fromBuffer cls (w.bytes ++ rest)).1 = .error .attributeError) := by
  obtain ⟨h1, h2, h3, h4⟩ := hw
  have e : w.bytes ++ rest = w.txid ++ (le 4 w.index ++ (compactSize w.script.length ++ (w.script ++
      (le 4 w.sequence ++ rest)))) := by simp [WireIn.bytes]
  have r : Input.fromBuffer cls (w.bytes ++ rest) = Rd.bind (Rd.lift (Script.fromBytes w.script)) (fun script =>
      Rd.bind (Buffer.read 4) fun seq => Rd.pure ⟨cls, encodeHex w.txid.reverse, w.index, script,
        decodeInt seq (bigEndian := false)⟩) (le 4 w.sequence ++ rest) := by
    unfold Input.fromBuffer
    rw [e, Rd.bind_ok (read_append' 32 _ _ h1), Rd.bind_ok (read_le 4 _ _), Rd.bind_ok (readVarint_compact _ h3 _),
      Rd.bind_ok (read_append _ _), decodeInt_le 4 _ (by omega)]
  rcases script_fromBytes ws _ he with ⟨hc, s, hs, hws, _⟩ | ⟨hc, hs⟩
  · refine .inl ⟨hc, ⟨cls, encodeHex w.txid.reverse, w.index, s, w.sequence⟩, ?_, ?_, rfl, hws⟩
    · rw [r, hs, lift_bind, Rd.bind_ok (read_le 4 _ _), decodeInt_le 4 _ (by omega)]
      rfl
    · exact ⟨(hexText_eq _).symm, rfl, by show Encodes s.wires w.script; rw [hws]; exact he, rfl⟩
  · right; exact ⟨hc, by rw [r, hs]; rfl⟩

theorem create_of_classify (n : Int) (s : Script) (h : Script.classify s.instructions = .ok s.cls) :
    ∃ o, Output.create n s = .ok o ∧ o.amount = n ∧ o.script = s := by
  unfold Output.create Script.create
  rw [h]
  exact ⟨_, rfl, rfl, rfl⟩

theorem output_fromBuffer (w : WireOut) (hw : w.Fits) (ws : List WireInstr) (he : Encodes ws w.script) (rest : Bytes) :
    (¬ Crashes (shape ws) ∧ ∃ o, Output.fromBuffer (w.bytes ++ rest) = (.ok o, rest) ∧ o.Shows w ∧ o.script.wires = ws) ∨
    (Crashes (shape ws) ∧ (Output.fromBuffer (w.bytes ++ rest)).1 = .error .attributeError) := by
  obtain ⟨h1, h2⟩ := hw
  have e : w.bytes ++ rest = le 8 w.amount ++ (compactSize w.script.length ++ (w.script ++ rest)) := by
    simp [WireOut.bytes]
  have r : Output.fromBuffer (w.bytes ++ rest) = Rd.bind (Rd.lift (Script.fromBytes w.script)) (fun script =>
      Rd.lift (Output.create w.amount script)) rest := by
    unfold Output.fromBuffer
    rw [e, Rd.bind_ok (read_le 8 _ _), Rd.bind_ok (readVarint_compact _ h2 _),
      Rd.bind_ok (read_append _ _), decodeInt_le 8 _ (by omega)]
  rcases script_fromBytes ws _ he with ⟨hc, s, hs, hws, hcl⟩ | ⟨hc, hs⟩
  · obtain ⟨o, ho, ha, hos⟩ := create_of_classify w.amount s hcl
    refine .inl ⟨hc, o, ?_, ⟨ha, by rw [hos, hws]; exact he⟩, by rw [hos, hws]⟩
    rw [r, hs]
    show (Output.create _ _, _) = _
    rw [ho]
  · right; exact ⟨hc, by rw [r, hs]; rfl⟩

/-- The wire script of an input makes the classifier raise. -/
def CrashesOn (b : Bytes) : Prop := ∃ ws, Encodes ws b ∧ Crashes (shape ws)

theorem readMany_eq {α β : Type} (f : Rd α) (g : β → Bytes) (R : α → β → Prop) (P : β → Prop) (bad : β → Prop)
    (hf : ∀ y rest, P y → (¬ bad y ∧ ∃ x, f (g y ++ rest) = (.ok x, rest) ∧ R x y) ∨
      (bad y ∧ (f (g y ++ rest)).1 = .error .attributeError)) :
    ∀ (ys : List β) (rest : Bytes), (∀ y ∈ ys, P y) →
      ((∀ y ∈ ys, ¬ bad y) ∧ ∃ xs, Transaction.readMany f ys.length ((ys.map g).flatten ++ rest) = (.ok xs, rest) ∧
        List.Forall₂ R xs ys) ∨
      ((∃ y ∈ ys, bad y) ∧ (Transaction.readMany f ys.length ((ys.map g).flatten ++ rest)).1 = .error .attributeError) := by
  intro ys
  induction ys with
  | nil => intro rest _; exact .inl ⟨by simp, [], rfl, .nil⟩
  | cons y ys ih =>
    intro rest hp
    simp only [List.map_cons, List.flatten_cons, List.append_assoc, List.length_cons, Transaction.readMany]
    rcases hf y ((ys.map g).flatten ++ rest) (hp y (by simp)) with ⟨hb, x, hx, hr⟩ | ⟨hb, hx⟩
    · rw [Rd.bind_ok hx]
      rcases ih rest (fun z hz => hp z (by simp [hz])) with ⟨hbs, xs, hxs, hrs⟩ | ⟨hbs, hxs⟩
      · left
        rw [Rd.bind_ok hxs]
        exact ⟨by simpa using ⟨hb, hbs⟩, x :: xs, rfl, .cons hr hrs⟩
      · right
        obtain ⟨z, hz, hbz⟩ := hbs
        refine ⟨⟨z, by simp [hz], hbz⟩, ?_⟩
        rcases hm : Transaction.readMany f ys.length ((ys.map g).flatten ++ rest) with ⟨r, s⟩
        rw [hm] at hxs
        simp only at hxs
        subst hxs
        rw [Rd.bind_err hm]
    · right
      refine ⟨⟨y, by simp, hb⟩, ?_⟩
      rcases hm : f (g y ++ ((ys.map g).flatten ++ rest)) with ⟨r, s⟩
      rw [hm] at hx
      simp only at hx
      subst hx
      rw [Rd.bind_err hm]

theorem crashesOn_iff {ws : List WireInstr} {b : Bytes} (h : Encodes ws b) : CrashesOn b ↔ Crashes (shape ws) :=
  ⟨fun ⟨ws', h1, h2⟩ => encodes_injective h h1 ▸ h2, fun hc => ⟨ws, h, hc⟩⟩

theorem forall₂_mem_left {α β : Type} {R : α → β → Prop} {xs : List α} {ys : List β} (h : List.Forall₂ R xs ys) :
    ∀ {x}, x ∈ xs → ∃ y ∈ ys, R x y := by
  induction h with
  | nil => simp
  | cons a _ ih =>
    intro x hx
    rcases List.mem_cons.1 hx with rfl | hx
    · exact ⟨_, by simp, a⟩
    · obtain ⟨y, hy, hr⟩ := ih hx
      exact ⟨y, by simp [hy], hr⟩

theorem mapM_some {α : Type} (xs : List α) : (xs.map some).mapM id = some xs := by
  induction xs with
  | nil => rfl
  | cons x xs ih => rw [List.map_cons, List.mapM_cons, ih]; rfl

theorem mapM_id {α : Type} (xs : List (Option α)) :
    (none ∈ xs ∧ xs.mapM id = none) ∨ (∃ ys, xs = ys.map some ∧ xs.mapM id = some ys) := by
  induction xs with
  | nil => exact .inr ⟨[], rfl, rfl⟩
  | cons x xs ih =>
    rw [List.mapM_cons]
    cases x with
    | none => exact .inl ⟨by simp, rfl⟩
    | some x =>
      rcases ih with ⟨h1, h2⟩ | ⟨ys, h1, h2⟩
      · left; rw [h2]; exact ⟨by simp [h1], rfl⟩
      · right; rw [h2]; exact ⟨x :: ys, by rw [h1]; rfl, rfl⟩

theorem new_some (is : List Input) (os : List Output) (l v : Int) (hi : is ≠ []) (ho : os ≠ [])
    (hl : 0 ≤ l ∧ l < 2 ^ 32) : Transaction.new (is.map some) (os.map some) l v = .ok ⟨is, os, l, v⟩ := by
  unfold Transaction.new
  rw [if_neg (by simpa using hi), mapM_some]
  simp only []
  rw [if_neg (by simpa using ho), mapM_some]
  simp only []
  rw [if_neg (by omega)]

theorem tx_fromBuffer (w : WireTx) (hw : w.Fits) (hi : w.inputs ≠ []) (ho : w.outputs ≠ [])
    (hsi : ∀ i ∈ w.inputs, ∃ ws, Encodes ws i.script) (hso : ∀ o ∈ w.outputs, ∃ ws, Encodes ws o.script)
    (rest : Bytes) :
    (((∀ i ∈ w.inputs, ¬ CrashesOn i.script) ∧ ∀ o ∈ w.outputs, ¬ CrashesOn o.script) ∧
      ∃ t, Transaction.fromBuffer (w.bytes ++ rest) = (.ok t, rest) ∧ t.Shows w ∧ ∀ i ∈ t.inputs, i.cls = .generic) ∨
    (((∃ i ∈ w.inputs, CrashesOn i.script) ∨ ∃ o ∈ w.outputs, CrashesOn o.script) ∧
      (Transaction.fromBuffer (w.bytes ++ rest)).1 = .error .attributeError) := by
  obtain ⟨h1, h2, h3, h4, h5, h6⟩ := hw
  have e : w.bytes ++ rest = le 4 w.version ++ (compactSize w.inputs.length ++ ((w.inputs.map WireIn.bytes).flatten ++
      (compactSize w.outputs.length ++ ((w.outputs.map WireOut.bytes).flatten ++ (le 4 w.lockTime ++ rest))))) := by
    simp [WireTx.bytes]
  have pr : ∀ n, n < 2 ^ 63 → Transaction.pyRange n = .ok n := fun n hn => if_pos hn
  unfold Transaction.fromBuffer
  rw [e, Rd.bind_ok (read_le 4 _ _), Rd.bind_ok (readVarint_compact _ (by omega) _), pr _ h5, lift_bind,
    decodeInt_le 4 _ (by norm_num; omega)]
  rcases readMany_eq (Input.fromBuffer .generic) WireIn.bytes (fun i w => i.Shows w ∧ i.cls = .generic)
      (fun y => y.Fits ∧ ∃ ws, Encodes ws y.script) (fun y => CrashesOn y.script)
      (by
        rintro y r ⟨hf, ws, he⟩
        rw [crashesOn_iff he]
        rcases input_fromBuffer .generic y hf ws he r with ⟨hc, i, ha, hb, hcl, _⟩ | h
        · exact .inl ⟨hc, i, ha, hb, hcl⟩
        · exact .inr h) w.inputs _ (fun y hy => ⟨h3 y hy, hsi y hy⟩) with ⟨hci, is, his, hris⟩ | ⟨hci, his⟩
  · rw [Rd.bind_ok his, Rd.bind_ok (readVarint_compact _ (by omega) _), pr _ h6, lift_bind]
    rcases readMany_eq Output.fromBuffer WireOut.bytes Output.Shows
      (fun y => y.Fits ∧ ∃ ws, Encodes ws y.script) (fun y => CrashesOn y.script)
      (by
        rintro y r ⟨hf, ws, he⟩
        rw [crashesOn_iff he]
        rcases output_fromBuffer y hf ws he r with ⟨hc, i, ha, hb, _⟩ | h
        · exact .inl ⟨hc, i, ha, hb⟩
        · exact .inr h) w.outputs _ (fun y hy => ⟨h4 y hy, hso y hy⟩) with ⟨hco, os, hos, hros⟩ | ⟨hco, hos⟩
    · left
      refine ⟨⟨hci, hco⟩, ⟨is, os, w.lockTime, w.version⟩, ?_, ?_, ?_⟩
      · rw [Rd.bind_ok hos, Rd.bind_ok (read_le 4 _ _), decodeInt_le 4 _ (by norm_num; omega)]
        show (Transaction.new _ _ _ _, rest) = _
        rw [new_some is os _ _ (by
            rintro rfl; exact hi (List.length_eq_zero_iff.1 hris.length_eq.symm)) (by
            rintro rfl; exact ho (List.length_eq_zero_iff.1 hros.length_eq.symm))
          (by omega)]
      · exact ⟨rfl, hris.imp fun _ _ h => h.1, hros, rfl⟩
      · intro i hmem
        obtain ⟨j, _, hj⟩ := forall₂_mem_left hris hmem
        exact hj.2
    · right
      refine ⟨.inr hco, ?_⟩
      rcases hm : Transaction.readMany Output.fromBuffer w.outputs.length _ with ⟨r, s⟩
      rw [hm] at hos
      simp only at hos
      subst hos
      rw [Rd.bind_err hm]
  · right
    refine ⟨.inl hci, ?_⟩
    rcases hm : Transaction.readMany (Input.fromBuffer .generic) w.inputs.length _ with ⟨r, s⟩
    rw [hm] at his
    simp only at his
    subst his
    rw [Rd.bind_err hm]

/-! ## Equality of objects -/

theorem script_eq_iff (s t : Script) : s.eq t = true ↔ s.wires = t.wires := by
  obtain ⟨c, is⟩ := s
  obtain ⟨c', js⟩ := t
  simp only [Script.eq, Bool.and_eq_true, beq_iff_eq, Script.wires]
  have key : ∀ i j : Instruction, i.eq j = true ↔ i.wire = j.wire := by
    intro i j
    obtain ⟨⟨op⟩, d⟩ := i
    obtain ⟨⟨op'⟩, d'⟩ := j
    simp [Instruction.eq, Instruction.wire]
  induction is generalizing js with
  | nil => cases js <;> simp
  | cons i is ih =>
    cases js with
    | nil => simp
    | cons j js =>
      simp only [List.length_cons, Nat.add_right_cancel_iff, List.zip_cons_cons, List.all_cons, Bool.and_eq_true,
        key, List.map_cons, List.cons.injEq]
      have := ih js
      tauto

theorem zip_all_iff {α : Type} (f : α → α → Bool) (xs ys : List α) :
    (xs.length == ys.length && (xs.zip ys).all fun p => f p.1 p.2) = true ↔
      List.Forall₂ (fun x y => f x y = true) xs ys := by
  induction xs generalizing ys with
  | nil => cases ys <;> simp
  | cons x xs ih =>
    cases ys with
    | nil => simp
    | cons y ys =>
      have := ih ys
      simp only [Bool.and_eq_true, beq_iff_eq] at this
      simp only [List.length_cons, List.zip_cons_cons, List.all_cons, Bool.and_eq_true, beq_iff_eq,
        Nat.add_right_cancel_iff, List.forall₂_cons]
      tauto

theorem tx_eq_iff (t u : Transaction) : t.eq u = true ↔
    List.Forall₂ (fun i j : Input => i.eq j = true) t.inputs u.inputs ∧
    List.Forall₂ (fun i j : Output => i.eq j = true) t.outputs u.outputs ∧ t.lockTime = u.lockTime ∧ t.version = u.version := by
  rw [← zip_all_iff, ← zip_all_iff]
  simp only [Transaction.eq, Bool.and_eq_true, beq_iff_eq]
  tauto

theorem input_eq_iff (i j : Input) : i.eq j = true ↔
    i.txId = j.txId ∧ i.txoIndex = j.txoIndex ∧ i.script.wires = j.script.wires ∧ i.seqNumber = j.seqNumber := by
  simp only [Input.eq, Bool.and_eq_true, beq_iff_eq, script_eq_iff]
  tauto

theorem output_eq_iff (i j : Output) : i.eq j = true ↔ i.amount = j.amount ∧ i.script.wires = j.script.wires := by
  simp only [Output.eq, Bool.and_eq_true, beq_iff_eq, script_eq_iff]

theorem input_shows_eq {i j : Input} {w : WireIn} (hi : i.Shows w) (hj : j.Shows w) : i.eq j = true := by
  obtain ⟨h1, h2, h3, h4⟩ := hi
  obtain ⟨g1, g2, g3, g4⟩ := hj
  rw [input_eq_iff]
  exact ⟨h1.trans g1.symm, h2.trans g2.symm, encodes_injective h3 g3, h4.trans g4.symm⟩

theorem output_shows_eq {i j : Output} {w : WireOut} (hi : i.Shows w) (hj : j.Shows w) : i.eq j = true := by
  rw [output_eq_iff]
  exact ⟨hi.1.trans hj.1.symm, encodes_injective hi.2 hj.2⟩

theorem forall₂_common {α β : Type} {R : α → β → Prop} {S : α → α → Prop}
    (h : ∀ x y w, R x w → R y w → S x y) : ∀ {xs ys : List α} {ws : List β}, List.Forall₂ R xs ws →
      List.Forall₂ R ys ws → List.Forall₂ S xs ys := by
  intro xs ys ws h1
  induction h1 generalizing ys with
  | nil => intro h2; cases h2; exact .nil
  | cons a _ ih => intro h2; cases h2 with | cons b h2 => exact .cons (h _ _ _ a b) (ih h2)

theorem tx_shows_eq {t u : Transaction} {w : WireTx} (ht : t.Shows w) (hu : u.Shows w) : t.eq u = true := by
  rw [tx_eq_iff]
  exact ⟨forall₂_common (R := Input.Shows) (fun _ _ _ h g => input_shows_eq h g) ht.2.1 hu.2.1,
    forall₂_common (R := Output.Shows) (fun _ _ _ h g => output_shows_eq h g) ht.2.2.1 hu.2.2.1, ht.2.2.2.trans hu.2.2.2.symm, ht.1.trans hu.1.symm⟩

/-! ## Reading is stable under appending, and canonical serialisation is shortest -/

/-- Appending to the buffer does not change a successful read. -/
def Rd.Stable {α : Type} (f : Rd α) : Prop := ∀ s a s', f s = (.ok a, s') → ∀ r, f (s ++ r) = (.ok a, s' ++ r)

theorem stable_bind {α β : Type} {f : Rd α} {g : α → Rd β} (hf : f.Stable) (hg : ∀ a, (g a).Stable) :
    (Rd.bind f g).Stable := by
  intro s b s' h r
  obtain ⟨a, s1, h1, h2⟩ := Rd.bind_ok_iff.1 h
  rw [Rd.bind_ok (hf _ _ _ h1 r)]
  exact hg a _ _ _ h2 r

theorem stable_read (n : Nat) : (Buffer.read n).Stable := by
  intro s b s' h r
  obtain ⟨rfl, hl⟩ := (read_ok_iff _ _ _ _).1 h
  rw [List.append_assoc]
  exact read_append' n b _ hl

theorem stable_pure {α : Type} (a : α) : (Rd.pure a).Stable := by
  intro s b s' h r; cases h; rfl

theorem stable_lift {α : Type} (x : Except Err α) : (Rd.lift x).Stable := by
  intro s b s' h r
  simp only [Rd.lift, Prod.mk.injEq] at h ⊢
  exact ⟨h.1, by rw [h.2]⟩

theorem stable_readVarint : Buffer.readVarint.Stable := by
  unfold Buffer.readVarint
  refine stable_bind (stable_read 1) fun b => ?_
  simp only []
  split
  · exact stable_pure _
  · split
    · exact stable_bind (stable_read 2) fun _ => stable_pure _
    · split
      · exact stable_bind (stable_read 4) fun _ => stable_pure _
      · exact stable_bind (stable_read 8) fun _ => stable_pure _

theorem stable_input (c : InputClass) : (Input.fromBuffer c).Stable :=
  stable_bind (stable_read _) fun _ => stable_bind (stable_read _) fun _ => stable_bind stable_readVarint fun _ =>
    stable_bind (stable_read _) fun _ => stable_bind (stable_lift _) fun _ => stable_bind (stable_read _) fun _ =>
      stable_pure _

theorem stable_output : Output.fromBuffer.Stable :=
  stable_bind (stable_read _) fun _ => stable_bind stable_readVarint fun _ =>
    stable_bind (stable_read _) fun _ => stable_bind (stable_lift _) fun _ => stable_lift _

theorem stable_readMany {α : Type} {f : Rd α} (hf : f.Stable) : ∀ n, (Transaction.readMany f n).Stable
  | 0 => stable_pure _
  | n + 1 => stable_bind hf fun _ => stable_bind (stable_readMany hf n) fun _ => stable_pure _

theorem stable_tx : Transaction.fromBuffer.Stable :=
  stable_bind (stable_read _) fun _ => stable_bind stable_readVarint fun _ => stable_bind (stable_lift _) fun _ =>
    stable_bind (stable_readMany (stable_input _) _) fun _ => stable_bind stable_readVarint fun _ =>
      stable_bind (stable_lift _) fun _ => stable_bind (stable_readMany stable_output _) fun _ =>
        stable_bind (stable_read _) fun _ => stable_lift _

/-- `canon` is at most as long as `pre`, and equal to it if as long. -/
def Shorter (canon pre : Bytes) : Prop := canon.length ≤ pre.length ∧ (canon.length = pre.length → canon = pre)

theorem shorter_refl (b : Bytes) : Shorter b b := ⟨le_refl _, fun _ => rfl⟩

theorem shorter_append {a b c d : Bytes} (h : Shorter a b) (h' : Shorter c d) : Shorter (a ++ c) (b ++ d) := by
  obtain ⟨h1, h2⟩ := h
  obtain ⟨h3, h4⟩ := h'
  refine ⟨by simp; omega, fun e => ?_⟩
  simp only [List.length_append] at e
  rw [h2 (by omega), h4 (by omega)]

theorem readVarint_shorter {s s' : Bytes} {n : Nat} (h : Buffer.readVarint s = (.ok n, s')) :
    ∃ pre, s = pre ++ s' ∧ n < 2 ^ 64 ∧ Shorter (compactSize n) pre := by
  obtain ⟨pre, h1, _, h3, h4, h5⟩ := readVarint_ok s s' n h
  rw [encodeVarint_compact] at h4 h5
  exact ⟨pre, h1, by norm_num at h3 ⊢; omega, h4, fun e => (h5 e.symm).symm⟩

theorem read_decode {w : Nat} {s b s' : Bytes} (h : Buffer.read w s = (.ok b, s')) :
    s = le w (decodeInt b (bigEndian := false)) ++ s' ∧ decodeInt b (bigEndian := false) < 256 ^ w := by
  obtain ⟨rfl, hl⟩ := (read_ok_iff _ _ _ _).1 h
  constructor
  · rw [← encodeInt_le', ← hl, encodeInt_decodeInt]
  · rw [← hl]; exact decodeInt_lt b false

theorem encodes_fromBytes {b : Bytes} {s : Script} (h : Script.fromBytes b = .ok s) :
    Encodes s.wires b ∧ Script.classify s.instructions = .ok s.cls := by
  rcases fromBytes_cases b with ⟨ws, hw⟩ | ⟨_, r, q, he, _⟩
  · rcases script_fromBytes ws b hw with ⟨_, s', hs, hws, hc⟩ | ⟨_, hs⟩
    · rw [hs] at h; cases h; rw [hws]; exact ⟨hw, hc⟩
    · rw [hs] at h; cases h
  · rw [he] at h; cases h

theorem input_fromBuffer_ok {cls : InputClass} {s s' : Bytes} {i : Input} (h : Input.fromBuffer cls s = (.ok i, s')) :
    ∃ w pre, s = pre ++ s' ∧ i.Shows w ∧ w.Fits ∧ Shorter w.bytes pre ∧ i.cls = cls := by
  unfold Input.fromBuffer at h
  obtain ⟨id, s1, h1, h⟩ := Rd.bind_ok_iff.1 h
  obtain ⟨ix, s2, h2, h⟩ := Rd.bind_ok_iff.1 h
  obtain ⟨n, s3, h3, h⟩ := Rd.bind_ok_iff.1 h
  obtain ⟨sb, s4, h4, h⟩ := Rd.bind_ok_iff.1 h
  obtain ⟨sc, s5, h5, h⟩ := Rd.bind_ok_iff.1 h
  obtain ⟨sq, s6, h6, h⟩ := Rd.bind_ok_iff.1 h
  simp only [Rd.pure_apply, Prod.mk.injEq, Except.ok.injEq] at h
  obtain ⟨rfl, rfl⟩ := h
  simp only [Rd.lift, Prod.mk.injEq] at h5
  obtain ⟨h5, rfl⟩ := h5
  obtain ⟨rfl, l1⟩ := (read_ok_iff _ _ _ _).1 h1
  obtain ⟨rfl, l2⟩ := read_decode h2
  obtain ⟨pre, rfl, l3, sh⟩ := readVarint_shorter h3
  obtain ⟨rfl, l4⟩ := (read_ok_iff _ _ _ _).1 h4
  obtain ⟨rfl, l6⟩ := read_decode h6
  obtain ⟨he, _⟩ := encodes_fromBytes h5
  refine ⟨⟨id, decodeInt ix (bigEndian := false), sb, decodeInt sq (bigEndian := false)⟩,
    id ++ le 4 (decodeInt ix (bigEndian := false)) ++ pre ++ sb ++ le 4 (decodeInt sq (bigEndian := false)),
    by simp, ⟨(hexText_eq _).symm, rfl, he, rfl⟩, ⟨l1, by norm_num at l2 ⊢; omega, by show sb.length < _; omega,
      by norm_num at l6 ⊢; omega⟩, ?_, rfl⟩
  subst l4
  exact shorter_append (shorter_append (shorter_append (shorter_refl _) sh) (shorter_refl _)) (shorter_refl _)

theorem output_fromBuffer_ok {s s' : Bytes} {o : Output} (h : Output.fromBuffer s = (.ok o, s')) :
    ∃ w pre, s = pre ++ s' ∧ o.Shows w ∧ w.Fits ∧ Shorter w.bytes pre := by
  unfold Output.fromBuffer at h
  obtain ⟨ix, s2, h2, h⟩ := Rd.bind_ok_iff.1 h
  obtain ⟨n, s3, h3, h⟩ := Rd.bind_ok_iff.1 h
  obtain ⟨sb, s4, h4, h⟩ := Rd.bind_ok_iff.1 h
  obtain ⟨sc, s5, h5, h⟩ := Rd.bind_ok_iff.1 h
  simp only [Rd.lift, Prod.mk.injEq] at h5 h
  obtain ⟨h5, rfl⟩ := h5
  obtain ⟨hcr, hss⟩ := h
  subst hss
  obtain ⟨rfl, l2⟩ := read_decode h2
  obtain ⟨pre, rfl, l3, sh⟩ := readVarint_shorter h3
  obtain ⟨rfl, l4⟩ := (read_ok_iff _ _ _ _).1 h4
  obtain ⟨he, hc⟩ := encodes_fromBytes h5
  obtain ⟨o', ho, ha, hs⟩ := create_of_classify (decodeInt ix (bigEndian := false)) sc hc
  rw [ho] at hcr
  cases hcr
  refine ⟨⟨decodeInt ix (bigEndian := false), sb⟩, le 8 (decodeInt ix (bigEndian := false)) ++ pre ++ sb,
    by simp, ⟨ha, by rw [hs]; exact he⟩, ⟨by norm_num at l2 ⊢; omega, by show sb.length < _; omega⟩, ?_⟩
  subst l4
  exact shorter_append (shorter_append (shorter_refl _) sh) (shorter_refl _)

theorem readMany_ok {α β : Type} {f : Rd α} {R : α → β → Prop} {P : β → Prop} {g : β → Bytes}
    (hf : ∀ s x s', f s = (.ok x, s') → ∃ y pre, s = pre ++ s' ∧ R x y ∧ P y ∧ Shorter (g y) pre) :
    ∀ (n : Nat) (s s' : Bytes) (xs : List α), Transaction.readMany f n s = (.ok xs, s') →
      ∃ ys pre, s = pre ++ s' ∧ List.Forall₂ R xs ys ∧ (∀ y ∈ ys, P y) ∧ Shorter (ys.map g).flatten pre ∧ ys.length = n
  | 0, s, s', xs, h => by
    simp only [Transaction.readMany, Rd.pure_apply, Prod.mk.injEq, Except.ok.injEq] at h
    obtain ⟨rfl, rfl⟩ := h
    exact ⟨[], [], rfl, .nil, by simp, shorter_refl _, rfl⟩
  | n + 1, s, s', xs, h => by
    obtain ⟨x, s1, h1, h⟩ := Rd.bind_ok_iff.1 h
    obtain ⟨xs', s2, h2, h⟩ := Rd.bind_ok_iff.1 h
    simp only [Rd.pure_apply, Prod.mk.injEq, Except.ok.injEq] at h
    obtain ⟨rfl, rfl⟩ := h
    obtain ⟨y, pre, rfl, hr, hp, hs⟩ := hf _ _ _ h1
    obtain ⟨ys, pre', rfl, hrs, hps, hss, rfl⟩ := readMany_ok hf n _ _ _ h2
    refine ⟨y :: ys, pre ++ pre', by simp, .cons hr hrs, ?_, ?_, rfl⟩
    · intro z hz
      rcases List.mem_cons.1 hz with rfl | hz
      · exact hp
      · exact hps z hz
    · exact shorter_append hs hss

theorem tx_fromBuffer_ok {s s' : Bytes} {t : Transaction} (h : Transaction.fromBuffer s = (.ok t, s')) :
    ∃ w pre, s = pre ++ s' ∧ t.Shows w ∧ w.Fits ∧ Shorter w.bytes pre ∧ ∀ i ∈ t.inputs, i.cls = .generic := by
  unfold Transaction.fromBuffer at h
  obtain ⟨ve, s1, h1, h⟩ := Rd.bind_ok_iff.1 h
  obtain ⟨n, s2, h2, h⟩ := Rd.bind_ok_iff.1 h
  obtain ⟨n', s3, h3, h⟩ := Rd.bind_ok_iff.1 h
  obtain ⟨is, s4, h4, h⟩ := Rd.bind_ok_iff.1 h
  obtain ⟨m, s5, h5, h⟩ := Rd.bind_ok_iff.1 h
  obtain ⟨m', s6, h6, h⟩ := Rd.bind_ok_iff.1 h
  obtain ⟨os, s7, h7, h⟩ := Rd.bind_ok_iff.1 h
  obtain ⟨lo, s8, h8, h9⟩ := Rd.bind_ok_iff.1 h
  clear h
  have pr : ∀ a b c d, Rd.lift (Transaction.pyRange a) c = (.ok b, d) → a = b ∧ c = d ∧ a < 2 ^ 63 := by
    intro a b c d h
    simp only [Rd.lift, Transaction.pyRange, Prod.mk.injEq] at h
    obtain ⟨h, rfl⟩ := h
    split at h
    · next hl => cases h; exact ⟨rfl, rfl, hl⟩
    · cases h
  obtain ⟨rfl, rfl, l3⟩ := pr _ _ _ _ h3
  obtain ⟨rfl, rfl, l6⟩ := pr _ _ _ _ h6
  simp only [Rd.lift, Prod.mk.injEq] at h9
  obtain ⟨hnew, hss⟩ := h9
  subst hss
  obtain ⟨rfl, l1⟩ := read_decode h1
  obtain ⟨p2, rfl, _, sh2⟩ := readVarint_shorter h2
  obtain ⟨wi, p4, rfl, r4, f4, sh4, n4⟩ := readMany_ok (R := fun i w => Input.Shows i w ∧ i.cls = .generic) (P := WireIn.Fits) (g := WireIn.bytes)
    (fun s x s' h => by
      obtain ⟨w, pre, a, b, c, d, e⟩ := input_fromBuffer_ok h
      exact ⟨w, pre, a, ⟨b, e⟩, c, d⟩) _ _ _ _ h4
  obtain ⟨p5, rfl, _, sh5⟩ := readVarint_shorter h5
  obtain ⟨wo, p7, rfl, r7, f7, sh7, n7⟩ := readMany_ok (R := Output.Shows) (P := WireOut.Fits) (g := WireOut.bytes)
    (fun s x s' h => output_fromBuffer_ok h) _ _ _ _ h7
  obtain ⟨rfl, l8⟩ := read_decode h8
  have hi : is ≠ [] := by
    rintro rfl; cases hnew
  have ho : os ≠ [] := by
    rintro rfl
    unfold Transaction.new at hnew
    rw [if_neg (by simpa using hi), mapM_some] at hnew
    cases hnew
  rw [new_some is os _ _ hi ho ⟨by omega, by norm_num at l8 ⊢; omega⟩] at hnew
  cases hnew
  refine ⟨⟨decodeInt ve (bigEndian := false), wi, wo, decodeInt lo (bigEndian := false)⟩,
    le 4 (decodeInt ve (bigEndian := false)) ++ p2 ++ p4 ++ p5 ++ p7 ++ le 4 (decodeInt lo (bigEndian := false)),
    by simp, ⟨rfl, r4.imp fun _ _ h => h.1, r7, rfl⟩, ⟨by norm_num at l1 ⊢; omega, by norm_num at l8 ⊢; omega, f4, f7, by
      show wi.length < _; omega, by show wo.length < _; omega⟩, ?_, ?_⟩
  · subst n4 n7
    exact shorter_append (shorter_append (shorter_append (shorter_append (shorter_append (shorter_refl _) sh2) sh4) sh5)
      sh7) (shorter_refl _)
  · intro i hmem
    obtain ⟨j, _, hj⟩ := forall₂_mem_left r4 hmem
    exact hj.2

theorem forall₂_transfer {α β : Type} {R : α → β → Prop} {S : α → α → Prop} (h : ∀ x y w, S x y → R x w → R y w) :
    ∀ {xs ys : List α} {ws : List β}, List.Forall₂ S xs ys → List.Forall₂ R xs ws → List.Forall₂ R ys ws := by
  intro xs ys ws h1
  induction h1 generalizing ws with
  | nil => intro h2; cases h2; exact .nil
  | cons a _ ih => intro h2; cases h2 with | cons b h2 => exact .cons (h _ _ _ a b) (ih h2)

theorem hexLower_digit (c : Char) (h : c ∈ "0123456789abcdef".toList) : ∃ n < 16, hexDigit n = c := by
  have key : ∀ c ∈ "0123456789abcdef".toList, ∃ n : Fin 16, hexDigit n.val = c := by decide
  obtain ⟨n, hn⟩ := key c h
  exact ⟨n.val, n.isLt, hn⟩

theorem hexLower_iff : ∀ t : Text, (t.length % 2 = 0 ∧ ∀ c ∈ t, c ∈ "0123456789abcdef".toList) ↔
    ∃ b, encodeHex b = t ∧ 2 * b.length = t.length
  | [] => by simp only [List.length_nil]; exact ⟨fun _ => ⟨[], rfl, rfl⟩, fun _ => by simp⟩
  | [c] => by
    constructor
    · rintro ⟨h, _⟩; simp at h
    · rintro ⟨b, _, h⟩; simp at h
  | c :: d :: t => by
    have ih := hexLower_iff t
    constructor
    · rintro ⟨h1, h2⟩
      obtain ⟨b, hb, hl⟩ := ih.1 ⟨by simp only [List.length_cons] at h1; omega, fun x hx => h2 x (by simp [hx])⟩
      obtain ⟨m, hm, rfl⟩ := hexLower_digit c (h2 c (by simp))
      obtain ⟨n, hn, rfl⟩ := hexLower_digit d (h2 d (by simp))
      refine ⟨byte (16 * m + n) :: b, ?_, by simp only [List.length_cons]; omega⟩
      rw [← hb]
      simp only [encodeHex, List.flatMap_cons, byte_val]
      rw [show (16 * m + n) % 256 / 16 = m by omega, show (16 * m + n) % 256 % 16 = n by omega]
      rfl
    · rintro ⟨b, hb, hl⟩
      cases b with
      | nil => simp at hl
      | cons x b =>
        simp only [encodeHex, List.flatMap_cons, List.cons_append, List.nil_append, List.cons.injEq] at hb
        obtain ⟨rfl, rfl, hb⟩ := hb
        obtain ⟨g1, g2⟩ := ih.2 ⟨b, hb, by simp only [List.length_cons] at hl; omega⟩
        have hx := x.isLt
        have key : ∀ n : Fin 16, hexDigit n.val ∈ "0123456789abcdef".toList := by decide
        refine ⟨by simp only [List.length_cons]; omega, ?_⟩
        intro y hy
        rcases List.mem_cons.1 hy with rfl | hy
        · exact key ⟨x.val / 16, by omega⟩
        · rcases List.mem_cons.1 hy with rfl | hy
          · exact key ⟨x.val % 16, by omega⟩
          · exact g2 y hy

/-- Every error of the reader satisfies `P`. -/
def Rd.Fails {α : Type} (P : Err → Prop) (f : Rd α) : Prop := ∀ s e s', f s = (.error e, s') → P e

theorem fails_bind {α β : Type} {P : Err → Prop} {f : Rd α} {g : α → Rd β} (hf : f.Fails P) (hg : ∀ a, (g a).Fails P) :
    (Rd.bind f g).Fails P := by
  intro s e s' h
  rcases hr : f s with ⟨r, s1⟩
  cases r with
  | error e' => rw [Rd.bind_err hr] at h; cases h; exact hf _ _ _ hr
  | ok a => rw [Rd.bind_ok hr] at h; exact hg a _ _ _ h

theorem fails_pure {α : Type} {P : Err → Prop} (a : α) : (Rd.pure a).Fails P := by
  intro s e s' h; cases h

theorem fails_lift {α : Type} {P : Err → Prop} (x : Except Err α) (h : ∀ e, x = .error e → P e) : (Rd.lift x).Fails P := by
  intro s e s' he
  simp only [Rd.lift, Prod.mk.injEq] at he
  exact h e he.1

theorem fails_read {P : Err → Prop} (hP : ∀ r q, P (.insufficientData r q)) (n : Nat) : (Buffer.read n).Fails P := by
  intro s e s' h
  obtain ⟨r, q, rfl, _⟩ := read_err_insufficient _ _ _ _ h
  exact hP r q

theorem fails_readVarint {P : Err → Prop} (hP : ∀ r q, P (.insufficientData r q)) : Buffer.readVarint.Fails P := by
  unfold Buffer.readVarint
  refine fails_bind (fails_read hP 1) fun b => ?_
  simp only []
  split
  · exact fails_pure _
  · split
    · exact fails_bind (fails_read hP 2) fun _ => fails_pure _
    · split
      · exact fails_bind (fails_read hP 4) fun _ => fails_pure _
      · exact fails_bind (fails_read hP 8) fun _ => fails_pure _

theorem script_error {b : Bytes} {e : Err} (h : Script.fromBytes b = .error e) :
    (∃ r q, e = .insufficientData r q) ∨ e = .attributeError := by
  rcases fromBytes_cases b with ⟨ws, hw⟩ | ⟨_, r, q, he, _⟩
  · rcases script_fromBytes ws b hw with ⟨_, s', hs, _⟩ | ⟨_, hs⟩
    · rw [hs] at h; cases h
    · rw [hs] at h; cases h; exact .inr rfl
  · rw [he] at h; cases h; exact .inl ⟨_, _, rfl⟩

theorem fails_readMany {α : Type} {P : Err → Prop} {f : Rd α} (hf : f.Fails P) : ∀ n, (Transaction.readMany f n).Fails P
  | 0 => fails_pure _
  | n + 1 => fails_bind hf fun _ => fails_bind (fails_readMany hf n) fun _ => fails_pure _

theorem fails_input {P : Err → Prop} (hP : ∀ r q, P (.insufficientData r q)) (hA : P .attributeError) (c : InputClass) :
    (Input.fromBuffer c).Fails P :=
  fails_bind (fails_read hP _) fun _ => fails_bind (fails_read hP _) fun _ => fails_bind (fails_readVarint hP) fun _ =>
    fails_bind (fails_read hP _) fun _ => fails_bind (fails_lift _ fun e he => by
      rcases script_error he with ⟨r, q, rfl⟩ | rfl
      · exact hP r q
      · exact hA) fun _ => fails_bind (fails_read hP _) fun _ => fails_pure _

theorem fails_output {P : Err → Prop} (hP : ∀ r q, P (.insufficientData r q)) (hA : P .attributeError) :
    Output.fromBuffer.Fails P :=
  fails_bind (fails_read hP _) fun _ => fails_bind (fails_readVarint hP) fun _ =>
    fails_bind (fails_read hP _) fun _ => fails_bind (fails_lift _ fun e he => by
      rcases script_error he with ⟨r, q, rfl⟩ | rfl
      · exact hP r q
      · exact hA) fun sc => fails_lift _ fun e he => by
        unfold Output.create Script.create at he
        rcases classify_spec sc.instructions with ⟨_, hc⟩ | ⟨_, c, hc, _⟩
        · rw [hc] at he; cases he; exact hA
        · rw [hc] at he; cases he

theorem fails_tx {P : Err → Prop} (hP : ∀ r q, P (.insufficientData r q)) (hA : P .attributeError)
    (hO : P .overflowError) (hi : P .txNoInputs) (ho : P .txNoOutputs) : Transaction.fromBuffer.Fails P := by
  have hr : ∀ n e, Transaction.pyRange n = .error e → P e := by
    intro n e h
    unfold Transaction.pyRange at h
    split at h <;> cases h
    exact hO
  refine fails_bind (fails_read hP _) fun _ => fails_bind (fails_readVarint hP) fun _ => fails_bind (fails_lift _ (hr _)) fun _ =>
    fails_bind (fails_readMany (fails_input hP hA _) _) fun is => fails_bind (fails_readVarint hP) fun _ =>
      fails_bind (fails_lift _ (hr _)) fun _ => fails_bind (fails_readMany (fails_output hP hA) _) fun os => ?_
  intro s e s' h
  rcases hl : Buffer.read 4 s with ⟨r, s1⟩
  cases r with
  | error e' => rw [Rd.bind_err hl] at h; cases h; exact fails_read hP _ _ _ _ hl
  | ok lo =>
    rw [Rd.bind_ok hl] at h
    simp only [Rd.lift, Prod.mk.injEq] at h
    obtain ⟨h, _⟩ := h
    obtain ⟨_, l8⟩ := read_decode hl
    by_cases h1 : is = []
    · subst h1; cases h; exact hi
    · by_cases h2 : os = []
      · subst h2
        unfold Transaction.new at h
        rw [if_neg (by simpa using h1), mapM_some] at h
        cases h; exact ho
      · rw [new_some _ _ _ _ h1 h2 ⟨by omega, by norm_num at l8 ⊢; omega⟩] at h
        cases h

end Bitforge
