import Verif.Props.Readers
import Verif.Props.Rfc6979
import Verif.Props.Malleable
import Verif.Props.Size

/-! # C119: what every object is written as, and why it cannot be written -/

namespace Bitforge
open Spec

/-! ## The outcomes

Nothing is assumed of the objects: numbers may be negative or too large, identifiers any text, and instructions need not be
those the readers build.  Numbers written little-endian by `encode_int` are cut to their width, and negative ones are
written as zero: `le w n.toNat`. -/

/-- An instruction. -/
inductive InstrWritten (i : Instruction) : Except Err Bytes → Prop
  | counted : 76 ≤ i.opcode.number.val → i.opcode.number.val ≤ 78 → InstrWritten i (.error .typeError)
  | missing : 1 ≤ i.opcode.number.val → i.opcode.number.val ≤ 75 → i.data = none → InstrWritten i (.error .typeError)
  | direct {d} : 1 ≤ i.opcode.number.val → i.opcode.number.val ≤ 75 → i.data = some d →
      InstrWritten i (.ok (i.opcode.number :: d.val))
  | plain : i.opcode.number.val = 0 ∨ 79 ≤ i.opcode.number.val → InstrWritten i (.ok [i.opcode.number])

/-- A sequence, each element written as `R` says; the first that cannot be written decides the error. -/
inductive ListWritten {α : Type} (R : α → Except Err Bytes → Prop) : List α → Except Err Bytes → Prop
  | nil : ListWritten R [] (.ok [])
  | here {x xs e} : R x (.error e) → ListWritten R (x :: xs) (.error e)
  | later {x xs b e} : R x (.ok b) → ListWritten R xs (.error e) → ListWritten R (x :: xs) (.error e)
  | next {x xs b bs} : R x (.ok b) → ListWritten R xs (.ok bs) → ListWritten R (x :: xs) (.ok (b ++ bs))

/-- A script. -/
def ScriptWritten (s : Script) : Except Err Bytes → Prop := ListWritten InstrWritten s.instructions

/-- An input: the script is written before the identifier is looked at, and the identifier may have any even number of
digits. -/
inductive InputWritten (i : Input) : Except Err Bytes → Prop
  | script {e} : ScriptWritten i.script (.error e) → InputWritten i (.error e)
  | fields {s r} : ScriptWritten i.script (.ok s) →
      HexOutcome .invalidHex (fun id r => r = .ok (WireIn.bytes ⟨id.reverse, i.txoIndex.toNat, s, i.seqNumber.toNat⟩)) i.txId r →
      InputWritten i r

/-- An output. -/
inductive OutputWritten (o : Output) : Except Err Bytes → Prop
  | script {e} : ScriptWritten o.script (.error e) → OutputWritten o (.error e)
  | fields {s} : ScriptWritten o.script (.ok s) → OutputWritten o (.ok (WireOut.bytes ⟨o.amount.toNat, s⟩))

/-- A transaction. -/
inductive TransactionWritten (t : Transaction) : Except Err Bytes → Prop
  | input {e} : ListWritten InputWritten t.inputs (.error e) → TransactionWritten t (.error e)
  | output {is e} : ListWritten InputWritten t.inputs (.ok is) → ListWritten OutputWritten t.outputs (.error e) →
      TransactionWritten t (.error e)
  | fields {is os} : ListWritten InputWritten t.inputs (.ok is) → ListWritten OutputWritten t.outputs (.ok os) →
      TransactionWritten t (.ok (le 4 t.version.toNat ++ compactSize t.inputs.length ++ is ++ compactSize t.outputs.length ++ os ++
        le 4 t.lockTime.toNat))

/-- The same bytes in hexadecimal. -/
inductive HexWritten (R : Except Err Bytes → Prop) : Except Err Text → Prop
  | fails {e} : R (.error e) → HexWritten R (.error e)
  | digits {b} : R (.ok b) → HexWritten R (.ok (hexText b))

/-- A hash of the same bytes. -/
inductive HashWritten (h : Bytes → Bytes) (R : Except Err Bytes → Prop) : Except Err Bytes → Prop
  | fails {e} : R (.error e) → HashWritten h R (.error e)
  | digest {b} : R (.ok b) → HashWritten h R (.ok (h b))

/-- The same bytes with a checksum, in base 58. -/
inductive CheckWritten (H : Hashes) (R : Except Err Bytes → Prop) : Except Err Text → Prop
  | fails {e} : R (.error e) → CheckWritten H R (.error e)
  | text {b t} : R (.ok b) → Base58Check H b t → CheckWritten H R (.ok t)

/-- A number of any size in `w` bytes, most significant first. -/
def be (w n : Nat) : Bytes := (le w n).reverse

/-- The payload of the wallet import format. -/
inductive WifWritten (k : PrivateKey) : Except Err Bytes → Prop
  | version : 256 ≤ k.network.wifPrefix → WifWritten k (.error .valueError)
  | payload {v : Byte} : v.val = k.network.wifPrefix →
      WifWritten k (.ok (v :: (be 32 k.secret.toNat ++ if k.compressed then [1] else [])))

/-- A public key: a negative coordinate is written as zero, one above 32 bytes is refused. -/
inductive SecWritten (k : PublicKey) : Except Err Bytes → Prop
  | wide : 2 ^ 256 ≤ k.pair.1 ∨ k.compressed = false ∧ 2 ^ 256 ≤ k.pair.2 → SecWritten k (.error .valueError)
  | compressed {v : Byte} : k.pair.1 < 2 ^ 256 → k.compressed = true → v = 2 ∧ k.pair.2 % 2 = 0 ∨ v = 3 ∧ k.pair.2 % 2 = 1 →
      SecWritten k (.ok (v :: be 32 k.pair.1.toNat))
  | long : k.pair.1 < 2 ^ 256 → k.pair.2 < 2 ^ 256 → k.compressed = false →
      SecWritten k (.ok (4 :: (be 32 k.pair.1.toNat ++ be 32 k.pair.2.toNat)))

/-- An address. -/
inductive AddressWritten (a : Address) : Except Err Bytes → Prop
  | version : 256 ≤ a.version → AddressWritten a (.error .valueError)
  | bytes {v : Byte} : v.val = a.version → AddressWritten a (.ok (v :: a.phash))

/-- The lowest `w` bytes of a number in two's complement, most significant first. -/
def twos (w : Nat) (n : Int) : Bytes := be w (n % 256 ^ w).toNat

/-- The parts of an extended key before the key itself. -/
def extendedHead (version : Nat) (depth index : Int) (parent : Nat) (chain : Bytes) : Bytes :=
  twos 4 version ++ twos 1 depth ++ twos 4 parent ++ twos 4 index ++ chain

/-- Only bytes below 128. -/
def Seven (b : Bytes) : Prop := ∀ x ∈ b, x.val < 128

/-- The payload of an extended key as text: all its bytes and its checksum have to be ASCII. -/
inductive SevenWritten (H : Hashes) (b : Bytes) : Except Err Text → Prop
  | unicode : ¬ Seven (b ++ (H.sha256 (H.sha256 b)).take 4) → SevenWritten H b (.error .unicodeDecodeError)
  | text {t} : Seven (b ++ (H.sha256 (H.sha256 b)).take 4) → Base58Check H b t → SevenWritten H b (.ok t)

/-- An extended public key: the key is written after the parts before it are looked at. -/
inductive XpubWritten (H : Hashes) (k : HDPublicKey) : Except Err Text → Prop
  | unicode : ¬ Seven (extendedHead k.network.hdPublicKey k.depth k.index k.parent k.chain) →
      XpubWritten H k (.error .unicodeDecodeError)
  | key {e} : Seven (extendedHead k.network.hdPublicKey k.depth k.index k.parent k.chain) → SecWritten k.pubkey (.error e) →
      XpubWritten H k (.error e)
  | text {b r} : Seven (extendedHead k.network.hdPublicKey k.depth k.index k.parent k.chain) → SecWritten k.pubkey (.ok b) →
      SevenWritten H (extendedHead k.network.hdPublicKey k.depth k.index k.parent k.chain ++ b) r → XpubWritten H k r

/-! ## Scripts -/

/-- C119. Instructions. -/
theorem C119_instruction (i : Instruction) (r : Except Err Bytes) : i.toBytes = r ↔ InstrWritten i r := by
  have hc : i.opcode.isConstPush = true ↔ 1 ≤ i.opcode.number.val ∧ i.opcode.number.val ≤ 75 := by
    unfold Opcode.isConstPush; simp
  have hv : i.opcode.isVarPush = true ↔ 76 ≤ i.opcode.number.val ∧ i.opcode.number.val ≤ 78 := varPush_iff i.opcode.number
  refine graph (f := Instruction.toBytes) (R := fun i r => InstrWritten i r) ?_ ?_ i r
  all_goals clear hc hv
  · intro i r h
    have hc : i.opcode.isConstPush = true ↔ 1 ≤ i.opcode.number.val ∧ i.opcode.number.val ≤ 75 := by
      unfold Opcode.isConstPush; simp
    have hv : i.opcode.isVarPush = true ↔ 76 ≤ i.opcode.number.val ∧ i.opcode.number.val ≤ 78 := varPush_iff i.opcode.number
    unfold Instruction.toBytes
    cases h with
    | counted h1 h2 => rw [if_neg (fun h => by have := hc.1 h; omega), if_pos (hv.2 ⟨h1, h2⟩)]
    | missing h1 h2 h3 => rw [if_pos (hc.2 ⟨h1, h2⟩), h3]
    | direct h1 h2 h3 => rw [if_pos (hc.2 ⟨h1, h2⟩), h3]
    | plain h1 => rw [if_neg (fun h => by have := hc.1 h; omega), if_neg (fun h => by have := hv.1 h; omega)]
  · intro i
    by_cases h1 : 1 ≤ i.opcode.number.val ∧ i.opcode.number.val ≤ 75
    · cases hd : i.data with
      | none => exact ⟨_, .missing h1.1 h1.2 hd⟩
      | some d => exact ⟨_, .direct h1.1 h1.2 hd⟩
    by_cases h2 : 76 ≤ i.opcode.number.val ∧ i.opcode.number.val ≤ 78
    · exact ⟨_, .counted h2.1 h2.2⟩
    exact ⟨_, .plain (by omega)⟩

/-- A function that writes the elements one after the other has the outcomes of `ListWritten`. -/
theorem list_written {α : Type} {f : α → Except Err Bytes} {R : α → Except Err Bytes → Prop} (hf : ∀ x r, f x = r ↔ R x r)
    {g : List α → Except Err Bytes} (g0 : g [] = .ok [])
    (g1 : ∀ x xs e, f x = .error e → g (x :: xs) = .error e)
    (g2 : ∀ x xs b, f x = .ok b → g (x :: xs) = (g xs).map (b ++ ·)) (xs : List α) (r : Except Err Bytes) :
    g xs = r ↔ ListWritten R xs r := by
  refine graph ?_ ?_ xs r
  · intro xs r h
    induction h with
    | nil => exact g0
    | here h => exact g1 _ _ _ ((hf _ _).2 h)
    | later h _ ih => rw [g2 _ _ _ ((hf _ _).2 h), ih]; rfl
    | next h _ ih => rw [g2 _ _ _ ((hf _ _).2 h), ih]; rfl
  · intro xs
    induction xs with
    | nil => exact ⟨_, .nil⟩
    | cons x xs ih =>
      obtain ⟨r, hr⟩ := ih
      cases hx : f x with
      | error e => exact ⟨_, .here ((hf _ _).1 hx)⟩
      | ok b =>
        cases r with
        | error e => exact ⟨_, .later ((hf _ _).1 hx) hr⟩
        | ok bs => exact ⟨_, .next ((hf _ _).1 hx) hr⟩

/-- C119. Scripts. -/
theorem C119_script (s : Script) (r : Except Err Bytes) : s.toBytes = r ↔ ScriptWritten s r := by
  refine list_written C119_instruction (g := Script.bytesOf) rfl ?_ ?_ s.instructions r
  · intro x xs e h
    simp only [Script.bytesOf, h]
  · intro x xs b h
    simp only [Script.bytesOf, h]
    cases Script.bytesOf xs <;> rfl

/-! ## Transactions -/

/-- C119. Inputs. -/
theorem C119_input (i : Input) (r : Except Err Bytes) : i.toBytes = r ↔ InputWritten i r := by
  have fields : ∀ (i : Input) (s : Bytes) (r : Except Err Bytes), i.script.toBytes = .ok s →
      (i.toBytes = r ↔ HexOutcome .invalidHex
        (fun id r => r = .ok (WireIn.bytes ⟨id.reverse, i.txoIndex.toNat, s, i.seqNumber.toNat⟩)) i.txId r) := by
    intro i s r hs
    rw [← hex_outcome (g := fun id => .ok (WireIn.bytes ⟨id.reverse, i.txoIndex.toNat, s, i.seqNumber.toNat⟩))
      (fun b r => ⟨fun h => h.symm, fun h => h.symm⟩) (fun t => rfl) i.txId r]
    unfold Input.toBytes
    rw [hs]
    simp only []
    cases hd : decodeHex i.txId with
    | error e => cases e <;> rfl
    | ok id =>
      simp only [Buffer.write, WireIn.bytes, encodeInt_le, encodeVarint_compact, List.nil_append]
  refine graph (f := Input.toBytes) (R := fun i r => InputWritten i r) ?_ ?_ i r
  · intro i r h
    cases h with
    | script h =>
      unfold Input.toBytes
      rw [(C119_script _ _).2 h]
    | fields h h' => exact (fields i _ r ((C119_script _ _).2 h)).2 h'
  · intro i
    cases hs : i.script.toBytes with
    | error e => exact ⟨_, .script ((C119_script _ _).1 hs)⟩
    | ok s => exact ⟨_, .fields ((C119_script _ _).1 hs) ((fields i s _ hs).1 rfl)⟩

/-- C119. Outputs. -/
theorem C119_output (o : Output) (r : Except Err Bytes) : o.toBytes = r ↔ OutputWritten o r := by
  refine graph (f := Output.toBytes) (R := fun o r => OutputWritten o r) ?_ ?_ o r
  · intro o r h
    unfold Output.toBytes
    cases h with
    | script h => rw [(C119_script _ _).2 h]
    | fields h =>
      rw [(C119_script _ _).2 h]
      simp only [Buffer.write, WireOut.bytes, encodeInt_le, encodeVarint_compact, List.nil_append]
  · intro o
    cases hs : o.script.toBytes with
    | error e => exact ⟨_, .script ((C119_script _ _).1 hs)⟩
    | ok s => exact ⟨_, .fields ((C119_script _ _).1 hs)⟩

theorem writeAll_from {α : Type} (f : α → Except Err Bytes) (xs : List α) (buf : Bytes) :
    Transaction.writeAll f xs buf = (Transaction.writeAll f xs []).map (buf ++ ·) := by
  induction xs generalizing buf with
  | nil => simp [Transaction.writeAll, Except.map]
  | cons x xs ih =>
    unfold Transaction.writeAll
    cases f x with
    | error e => rfl
    | ok b =>
      simp only [Buffer.write, List.nil_append]
      rw [ih (buf ++ b), ih b]
      cases Transaction.writeAll f xs [] <;> simp [Except.map]

theorem writeAll_written {α : Type} {f : α → Except Err Bytes} {R : α → Except Err Bytes → Prop} (hf : ∀ x r, f x = r ↔ R x r)
    (xs : List α) (r : Except Err Bytes) : Transaction.writeAll f xs [] = r ↔ ListWritten R xs r := by
  refine list_written hf (g := fun xs => Transaction.writeAll f xs []) rfl ?_ ?_ xs r
  · intro x xs e h
    simp only [Transaction.writeAll, h]
  · intro x xs b h
    simp only [Transaction.writeAll, h, Buffer.write, List.nil_append]
    exact writeAll_from f xs b

/-- C119. Transactions. -/
theorem C119_transaction (t : Transaction) (r : Except Err Bytes) : t.toBytes = r ↔ TransactionWritten t r := by
  have hi := writeAll_written C119_input
  have ho := writeAll_written C119_output
  refine graph (f := Transaction.toBytes) (R := fun t r => TransactionWritten t r) ?_ ?_ t r
  · intro t r h
    unfold Transaction.toBytes
    cases h with
    | input h =>
      simp only []
      rw [writeAll_from, (hi _ _).2 h]
      rfl
    | output h h' =>
      simp only []
      rw [writeAll_from, (hi _ _).2 h]
      simp only [Except.map]
      rw [writeAll_from, (ho _ _).2 h']
      rfl
    | fields h h' =>
      simp only []
      rw [writeAll_from, (hi _ _).2 h]
      simp only [Except.map]
      rw [writeAll_from, (ho _ _).2 h']
      simp only [Except.map, Buffer.write, encodeInt_le, encodeVarint_compact, List.nil_append]
  · intro t
    cases h : Transaction.writeAll Input.toBytes t.inputs [] with
    | error e => exact ⟨_, .input ((hi _ _).1 h)⟩
    | ok is =>
      cases h' : Transaction.writeAll Output.toBytes t.outputs [] with
      | error e => exact ⟨_, .output ((hi _ _).1 h) ((ho _ _).1 h')⟩
      | ok os => exact ⟨_, .fields ((hi _ _).1 h) ((ho _ _).1 h')⟩

/-! ## Hexadecimal and base 58 -/

theorem hex_written {R : Except Err Bytes → Prop} {x : Except Err Bytes} (hx : ∀ r, x = r ↔ R r) (r : Except Err Text) :
    x.map encodeHex = r ↔ HexWritten R r := by
  refine graph (f := fun (_ : Unit) => x.map encodeHex) (R := fun _ r => HexWritten R r) ?_ ?_ () r
  · intro _ r h
    cases h with
    | fails h => simp only [(hx _).2 h, Except.map]
    | digits h => simp only [(hx _).2 h, Except.map, hexText_eq]
  · intro _
    cases h : x with
    | error e => exact ⟨_, .fails ((hx _).1 h)⟩
    | ok b => exact ⟨_, .digits ((hx _).1 h)⟩

/-- C119. The hexadecimal forms of scripts, inputs, outputs and transactions. -/
theorem C119_hex (r : Except Err Text) : (∀ i : Instruction, i.toHex = r ↔ HexWritten (InstrWritten i) r) ∧
    (∀ s : Script, s.toHex = r ↔ HexWritten (ScriptWritten s) r) ∧
    (∀ i : Input, i.toHex = r ↔ HexWritten (InputWritten i) r) ∧ (∀ o : Output, o.toHex = r ↔ HexWritten (OutputWritten o) r) ∧
    (∀ t : Transaction, t.toHex = r ↔ HexWritten (TransactionWritten t) r) :=
  ⟨fun i => hex_written (C119_instruction i) r, fun s => hex_written (C119_script s) r, fun i => hex_written (C119_input i) r,
    fun o => hex_written (C119_output o) r, fun t => hex_written (C119_transaction t) r⟩

theorem hash_written {h : Bytes → Bytes} {R : Except Err Bytes → Prop} {x : Except Err Bytes} (hx : ∀ r, x = r ↔ R r)
    (r : Except Err Bytes) : x.map h = r ↔ HashWritten h R r := by
  refine graph (f := fun (_ : Unit) => x.map h) (R := fun _ r => HashWritten h R r) ?_ ?_ () r
  · intro _ r h
    cases h with
    | fails h => simp only [(hx _).2 h, Except.map]
    | digest h => simp only [(hx _).2 h, Except.map]
  · intro _
    cases h : x with
    | error e => exact ⟨_, .fails ((hx _).1 h)⟩
    | ok b => exact ⟨_, .digest ((hx _).1 h)⟩

/-- C119. The identifiers of transactions and the hashes of scripts. -/
theorem C119_hashes (H : Hashes) : (∀ (s : Script) r, s.toHash H = r ↔ HashWritten (fun b => H.ripemd160 (H.sha256 b)) (ScriptWritten s) r) ∧
    (∀ (t : Transaction) r, t.getIdBytes H = r ↔ HashWritten (fun b => H.sha256 (H.sha256 b)) (TransactionWritten t) r) ∧
    (∀ (t : Transaction) r, t.getId H = r ↔ HexWritten (HashWritten (fun b => H.sha256 (H.sha256 b)) (TransactionWritten t)) r) :=
  ⟨fun s => hash_written (C119_script s), fun t => hash_written (C119_transaction t),
    fun t => hex_written (hash_written (C119_transaction t))⟩

theorem check_encode (H : Hashes) (d : Bytes) (t : Text) : encodeBase58h H d = t ↔ Base58Check H d t := by
  rw [base58Check_iff, decodeBase58h_iff]

theorem check_written {H : Hashes} {R : Except Err Bytes → Prop} {x : Except Err Bytes} (hx : ∀ r, x = r ↔ R r)
    (r : Except Err Text) : x.map (encodeBase58h H) = r ↔ CheckWritten H R r := by
  refine graph (f := fun (_ : Unit) => x.map (encodeBase58h H)) (R := fun _ r => CheckWritten H R r) ?_ ?_ () r
  · intro _ r h
    cases h with
    | fails h => simp only [(hx _).2 h, Except.map]
    | text h h' => simp only [(hx _).2 h, Except.map, (check_encode _ _ _).2 h']
  · intro _
    cases h : x with
    | error e => exact ⟨_, .fails ((hx _).1 h)⟩
    | ok b => exact ⟨_, .text ((hx _).1 h) ((check_encode _ _ _).1 rfl)⟩

/-! ## Keys and addresses -/

theorem encodeInt_be (n : Int) (w : Nat) : encodeInt n true (some w) = be w n.toNat := by
  rw [encodeInt_big_eq, encodeInt_le, be]

theorem pyChr_graph (n : Nat) (r : Except Err Byte) : pyChr n = r ↔
    256 ≤ n ∧ r = .error .valueError ∨ ∃ v : Byte, v.val = n ∧ r = .ok v := by
  unfold pyChr
  split
  next h =>
    constructor
    · rintro rfl; exact .inr ⟨⟨n, h⟩, rfl, rfl⟩
    · rintro (⟨h', -⟩ | ⟨v, h', rfl⟩)
      · omega
      · congr 1; exact Fin.ext h'.symm
  next h =>
    constructor
    · rintro rfl; exact .inl ⟨by omega, rfl⟩
    · rintro (⟨-, rfl⟩ | ⟨v, h', -⟩)
      · rfl
      · have := v.isLt; omega

/-- C119. The bytes of private keys and their hexadecimal form: never an error. -/
theorem C119_private (k : PrivateKey) : k.toBytes = be 32 k.secret.toNat ∧ k.toHex = hexText (be 32 k.secret.toNat) := by
  have : k.toBytes = be 32 k.secret.toNat := encodeInt_be _ _
  exact ⟨this, by rw [PrivateKey.toHex, this, hexText_eq]⟩

/-- C119. Private keys in wallet import format. -/
theorem C119_wif (H : Hashes) (k : PrivateKey) (r : Except Err Text) : k.toWif H = r ↔ CheckWritten H (WifWritten k) r := by
  have hx : ∀ r : Except Err Bytes, ((pyChr k.network.wifPrefix).map fun v => v :: (be 32 k.secret.toNat ++ if k.compressed then [1] else [])) = r ↔
      WifWritten k r := by
    intro r
    constructor
    · intro h
      rcases (pyChr_graph _ _).1 (rfl : pyChr k.network.wifPrefix = _) with ⟨hw, he⟩ | ⟨v, hw, he⟩
      · rw [he] at h; cases h; exact .version hw
      · rw [he] at h; cases h; exact .payload hw
    · intro h
      cases h with
      | version h => rw [(pyChr_graph _ _).2 (.inl ⟨h, rfl⟩)]; rfl
      | payload h => rw [(pyChr_graph _ _).2 (.inr ⟨_, h, rfl⟩)]; rfl
  rw [← check_written hx r, ← (C119_private k).1]
  unfold PrivateKey.toWif
  cases pyChr k.network.wifPrefix <;> rfl

theorem toBytes32_graph (v : Int) : toBytes32 v = if v < 2 ^ 256 then .ok (be 32 v.toNat) else .error .valueError := by
  have e : (256 : Int) ^ 32 = 2 ^ 256 := by norm_num
  split
  next h =>
    by_cases h0 : 0 ≤ v
    · rw [toBytes32_ok v h0 (by rw [e]; exact h), encodeInt_be]
    · have : v.toNat = (0 : Int).toNat := by omega
      rw [← encodeInt_be, encodeInt_be, this, ← encodeInt_be, ← toBytes32_ok 0 (by omega) (by norm_num)]
      unfold toBytes32
      rw [this]
  next h => exact toBytes32_large v (by rw [e]; omega)

/-- C119. Public keys. -/
theorem C119_public (k : PublicKey) (r : Except Err Bytes) : k.toBytes = r ↔ SecWritten k r := by
  refine graph (f := PublicKey.toBytes) (R := fun k r => SecWritten k r) ?_ ?_ k r
  · intro k r h
    unfold PublicKey.toBytes publicPairToSec
    rw [toBytes32_graph, toBytes32_graph]
    cases h with
    | wide h =>
      by_cases hx : k.pair.1 < 2 ^ 256
      · obtain ⟨hc, hy⟩ := h.resolve_left (by omega)
        rw [if_pos hx, if_neg (by omega), hc]
        rfl
      · rw [if_neg hx]
        rfl
    | compressed hx hc hv =>
      rw [if_pos hx, hc]
      rcases hv with ⟨rfl, hy⟩ | ⟨rfl, hy⟩ <;> rw [hy] <;> rfl
    | long hx hy hc =>
      rw [if_pos hx, if_pos hy, hc]
      rfl
  · intro k
    by_cases hw : 2 ^ 256 ≤ k.pair.1 ∨ k.compressed = false ∧ 2 ^ 256 ≤ k.pair.2
    · exact ⟨_, .wide hw⟩
    · rw [not_or, not_and] at hw
      cases hc : k.compressed with
      | true =>
        rcases Int.emod_two_eq_zero_or_one k.pair.2 with h | h
        · exact ⟨_, .compressed (by omega) hc (.inl ⟨rfl, h⟩)⟩
        · exact ⟨_, .compressed (by omega) hc (.inr ⟨rfl, h⟩)⟩
      | false => exact ⟨_, .long (by omega) (by have := hw.2 hc; omega) hc⟩

/-- C119. The hexadecimal form of public keys. -/
theorem C119_public_hex (k : PublicKey) (r : Except Err Text) : k.toHex = r ↔ HexWritten (SecWritten k) r := by
  rw [← hex_written (C119_public k) r]
  unfold PublicKey.toHex
  cases k.toBytes <;> rfl

/-- C119. Addresses. -/
theorem C119_address (a : Address) (r : Except Err Bytes) : a.toBytes = r ↔ AddressWritten a r := by
  refine graph (f := Address.toBytes) (R := fun a r => AddressWritten a r) ?_ ?_ a r
  · intro a r h
    unfold Address.toBytes
    cases h with
    | version h => rw [(pyChr_graph _ _).2 (.inl ⟨h, rfl⟩)]
    | bytes h => rw [(pyChr_graph _ _).2 (.inr ⟨_, h, rfl⟩)]; rfl
  · intro a
    rcases (pyChr_graph _ _).1 (rfl : pyChr a.version = _) with ⟨h, -⟩ | ⟨v, h, -⟩
    · exact ⟨_, .version h⟩
    · exact ⟨_, .bytes h⟩

/-- C119. Addresses as text and in hexadecimal. -/
theorem C119_address_text (H : Hashes) (a : Address) (r : Except Err Text) :
    (a.toString H = r ↔ CheckWritten H (AddressWritten a) r) ∧ (a.toHex = r ↔ HexWritten (AddressWritten a) r) := by
  constructor
  · rw [← check_written (C119_address a) r]
    unfold Address.toString
    cases a.toBytes <;> rfl
  · rw [← hex_written (C119_address a) r]
    unfold Address.toHex
    cases a.toBytes <;> rfl

/-! ## Extended keys -/

theorem intToBytes_twos (v : Int) (w : Nat) : intToBytes v w = twos w v := by
  have h0 : 0 ≤ v % 256 ^ w := Int.emod_nonneg _ (by positivity)
  have e : v = ((v % 256 ^ w).toNat : Int) + 256 ^ w * (v / 256 ^ w) := by
    rw [Int.toNat_of_nonneg h0]
    exact (Int.emod_add_mul_ediv v _).symm
  unfold twos be
  rw [← intToBytes_octets]
  conv => lhs; rw [e]
  unfold intToBytes
  rw [intToBytesLoop_add]

theorem seven_all (b : Bytes) : (b.all fun x => decide (x.val < 128)) = true ↔ Seven b := by
  rw [List.all_eq_true]
  simp only [decide_eq_true_eq, Seven]

theorem asciiSum_graph (parts : List Bytes) : (Seven parts.flatten → asciiSum parts = .ok parts.flatten) ∧
    (¬ Seven parts.flatten → asciiSum parts = .error .unicodeDecodeError) := by
  have key : (parts.all fun part => part.all fun b => decide (b.val < 128)) = true ↔ Seven parts.flatten := by
    rw [← seven_all, List.all_flatten]
  unfold asciiSum
  exact ⟨fun h => if_pos (key.2 h), fun h => if_neg fun hc => h (key.1 hc)⟩

theorem seven_append {a b : Bytes} : Seven (a ++ b) ↔ Seven a ∧ Seven b := by
  unfold Seven
  simp only [List.mem_append, or_imp, forall_and]

theorem seven_written (H : Hashes) (b : Bytes) (r : Except Err Text) :
    b2aHashedBase58Unicode H b = r ↔ SevenWritten H b r := by
  have fl : [b, (doubleSha256 H b).take 4].flatten = b ++ (H.sha256 (H.sha256 b)).take 4 := by simp [doubleSha256]
  refine graph (f := b2aHashedBase58Unicode H) (R := fun b r => SevenWritten H b r) ?_ ?_ b r
  · clear fl
    intro b r h
    have fl : [b, (doubleSha256 H b).take 4].flatten = b ++ (H.sha256 (H.sha256 b)).take 4 := by simp [doubleSha256]
    unfold b2aHashedBase58Unicode
    cases h with
    | unicode h => rw [(asciiSum_graph _).2 (by rw [fl]; exact h)]
    | text h h' =>
      rw [(asciiSum_graph _).1 (by rw [fl]; exact h)]
      simp only []
      rw [(a2bHashed_iff H _ _).1 (a2b_of_check h')]
  · intro b
    by_cases h : Seven (b ++ (H.sha256 (H.sha256 b)).take 4)
    · exact ⟨_, .text h (check_of_a2b ((a2bHashed_iff H _ _).2 rfl))⟩
    · exact ⟨_, .unicode h⟩

/-- C119. Extended private keys. -/
theorem C119_xprv (H : Hashes) (k : HDPrivateKey) (r : Except Err Text) : k.toString H = r ↔
    SevenWritten H (extendedHead k.network.hdPrivateKey k.depth k.index k.parent k.chain ++ 0 :: be 32 k.privkey.secret.toNat) r := by
  rw [← seven_written]
  have fl : [intToBytes k.network.hdPrivateKey 4, intToBytes k.depth 1, intToBytes k.parent 4, intToBytes k.index 4, k.chain, [0],
      k.privkey.toBytes].flatten =
      extendedHead k.network.hdPrivateKey k.depth k.index k.parent k.chain ++ 0 :: be 32 k.privkey.secret.toNat := by
    simp [extendedHead, intToBytes_twos, (C119_private k.privkey).1]
  unfold HDPrivateKey.toString
  by_cases h : Seven (extendedHead k.network.hdPrivateKey k.depth k.index k.parent k.chain ++ 0 :: be 32 k.privkey.secret.toNat)
  · rw [(asciiSum_graph _).1 (by rw [fl]; exact h), fl]
  · rw [(asciiSum_graph _).2 (by rw [fl]; exact h)]
    rw [(seven_written H _ (.error .unicodeDecodeError)).2 (.unicode fun h' => h (seven_append.1 h').1)]

/-- C119. Extended public keys. -/
theorem C119_xpub (H : Hashes) (k : HDPublicKey) (r : Except Err Text) : k.toString H = r ↔ XpubWritten H k r := by
  refine graph (f := HDPublicKey.toString H) (R := fun k r => XpubWritten H k r) ?_ ?_ k r
  · intro k r hr
    have fl : [intToBytes k.network.hdPublicKey 4, intToBytes k.depth 1, intToBytes k.parent 4, intToBytes k.index 4,
        k.chain].flatten = extendedHead k.network.hdPublicKey k.depth k.index k.parent k.chain := by
      simp [extendedHead, intToBytes_twos]
    unfold HDPublicKey.toString
    simp only []
    cases hr with
    | unicode h => rw [(asciiSum_graph _).2 (by rw [fl]; exact h)]
    | key h hk => rw [(asciiSum_graph _).1 (by rw [fl]; exact h), (C119_public _ _).2 hk]
    | @text b _ h hk hr =>
      rw [(asciiSum_graph _).1 (by rw [fl]; exact h), (C119_public _ _).2 hk]
      simp only []
      have fl' : ([intToBytes k.network.hdPublicKey 4, intToBytes k.depth 1, intToBytes k.parent 4, intToBytes k.index 4,
          k.chain] ++ [b]).flatten = extendedHead k.network.hdPublicKey k.depth k.index k.parent k.chain ++ b := by
        rw [List.flatten_append, fl]; simp
      by_cases h' : Seven (extendedHead k.network.hdPublicKey k.depth k.index k.parent k.chain ++ b)
      · rw [(asciiSum_graph _).1 (by rw [fl']; exact h'), fl']
        exact (seven_written H _ _).2 hr
      · rw [(asciiSum_graph _).2 (by rw [fl']; exact h')]
        rw [← (seven_written H _ _).2 hr]
        exact ((seven_written H _ (.error .unicodeDecodeError)).2 (.unicode fun h'' => h' (seven_append.1 h'').1)).symm
  · intro k
    by_cases h : Seven (extendedHead k.network.hdPublicKey k.depth k.index k.parent k.chain)
    swap
    · exact ⟨_, .unicode h⟩
    cases hk : k.pubkey.toBytes with
    | error e => exact ⟨_, .key h ((C119_public _ _).1 hk)⟩
    | ok b => exact ⟨_, .text h ((C119_public _ _).1 hk) ((seven_written H _ _).1 rfl)⟩

/-! ## Examples -/

/-- A negative amount and a script with a push that lacks its data: the error is that of the script. -/
example : (⟨.generic, -5, ⟨.generic, [⟨⟨3⟩, none⟩]⟩⟩ : Output).toBytes = .error .typeError :=
  (C119_output _ _).2 (.script (.here (.missing (by decide) (by decide) rfl)))

/-- A negative amount is written as zero. -/
example : (⟨.generic, -5, ⟨.generic, [⟨⟨0x76⟩, none⟩]⟩⟩ : Output).toBytes = .ok [0, 0, 0, 0, 0, 0, 0, 0, 1, 0x76] :=
  (C119_output _ _).2 (.fields (s := [0x76]) (ListWritten.next (b := [0x76]) (bs := []) (InstrWritten.plain (by decide)) .nil))

/-- An identifier of one byte in capitals and an index that does not fit: the input has ten bytes. -/
example : (⟨.generic, ['A', 'B'], 2 ^ 32 + 7, ⟨.generic, []⟩, 1⟩ : Input).toBytes =
    .ok [0xab, 7, 0, 0, 0, 0, 1, 0, 0, 0] :=
  (C119_input _ _).2 (.fields (s := []) .nil (.bytes (b := [0xab]) (by decide) (by decide) (by decide)))

/-- A transaction whose first input has no hexadecimal identifier and whose second has a script that cannot be written. -/
example : (⟨[⟨.generic, ['x', 'y'], 0, ⟨.generic, []⟩, 0⟩, ⟨.generic, ['0', '0'], 0, ⟨.generic, [⟨⟨76⟩, none⟩]⟩, 0⟩], [], 1, 0⟩ : Transaction).toBytes =
    .error .invalidHex :=
  (C119_transaction _ _).2 (.input (.here (.fields (s := []) .nil (.digits (by unfold Ascii; decide) (.inr ⟨'x', by decide, by decide⟩)))))

/-- A public key with a coordinate of 257 bits is refused; with a negative one it is written with zeros. -/
example : (⟨(2 ^ 256, 1), Network.livenet, true⟩ : PublicKey).toBytes = .error .valueError :=
  (C119_public _ _).2 (.wide (.inl (le_refl _)))
example : (⟨(-1, -1), Network.livenet, true⟩ : PublicKey).toBytes = .ok (3 :: List.replicate 32 0) :=
  (C119_public _ _).2 (.compressed (by decide) rfl (.inr ⟨rfl, by decide⟩))

/-- On a network of the library an extended key is never written. -/
example : (⟨⟨5, Network.livenet, true⟩, List.replicate 32 0, 0, 0, 0, Network.livenet, 0⟩ : HDPrivateKey).toString Hashes.toy =
    .error .unicodeDecodeError :=
  (C119_xprv _ _ _).2 (.unicode fun h => absurd (h 0x88 (by decide +kernel)) (by decide))

end Bitforge
