import Verif.Spec.Errors
import Verif.Props.Keys
import Verif.Props.PubKey
import Verif.Props.HdKey
import Verif.Props.Names
import Verif.Props.Tx
import Verif.Props.Uri

/-! # C88: parsers raise only the exceptions of the library -/

namespace Bitforge
open Spec

theorem isAscii_iff (t : Text) : isAscii t = true ↔ Ascii t := by
  simp [isAscii, Ascii]

theorem not_ascii_iff (t : Text) : isAscii t = false ↔ ¬ Ascii t := by
  rw [← isAscii_iff, Bool.not_eq_true]

theorem raises_ok {α : Type} {P : Err → Prop} (a : α) : RaisesOnly P (.ok a : Except Err α) := by
  intro e h; cases h

theorem raises_error {α : Type} {P : Err → Prop} {e : Err} : RaisesOnly P (.error e : Except Err α) ↔ P e :=
  ⟨fun h => h e rfl, fun h e' he => by cases he; exact h⟩

theorem raises_mono {α : Type} {P Q : Err → Prop} {x : Except Err α} (h : RaisesOnly P x) (hpq : ∀ e, P e → Q e) :
    RaisesOnly Q x := fun e he => hpq e (h e he)

/-! ## Private keys -/

theorem raises_make (d : Int) (net : NetValue) (c : Bool) : RaisesOnly PrivateKeyError (PrivateKey.make d net c) := by
  unfold PrivateKey.make PrivateKey.new PrivateKey.findNetwork
  split
  · next h =>
    split at h
    · cases h
    · cases h; exact raises_error.2 trivial
  · extract_lets
    split
    · exact raises_error.2 trivial
    · exact raises_ok _

/-- C88. The constructor and `from_bytes` of private keys raise only exceptions derived from `PrivateKey.Error`. -/
theorem C88_private_bytes (b : Bytes) (d : Option Int) (net : NetValue) (c : Bool) (r : Int) :
    RaisesOnly PrivateKeyError (PrivateKey.new d net c r) ∧ RaisesOnly PrivateKeyError (PrivateKey.fromBytes b net c) := by
  constructor
  · have := raises_make (d.getD r) net c
    unfold PrivateKey.make PrivateKey.new at this
    unfold PrivateKey.new
    simpa using this
  · unfold PrivateKey.fromBytes
    split
    · exact raises_error.2 trivial
    · exact raises_make _ _ _

theorem raises_hex {α : Type} {P : Err → Prop} {t : Text} {bad : Err} {f : Bytes → Except Err α} (hbad : P bad)
    (hne : ¬ P .unicodeEncodeError) (hf : ∀ b, RaisesOnly P (f b)) :
    RaisesOnly P (match decodeHex t with
      | .error .invalidHex => .error bad
      | .error e => .error e
      | .ok b => f b) ↔ Ascii t := by
  unfold decodeHex
  rw [← isAscii_iff]
  by_cases h : isAscii t = true
  · rw [if_pos h]
    simp only [h, iff_true]
    cases unhexlify t with
    | none => exact raises_error.2 hbad
    | some b => exact hf b
  · rw [if_neg h]
    simp only [h]
    constructor
    · intro h'; exact absurd (raises_error.1 h') hne
    · intro h'; cases h'

theorem raises_wifBody (b : Bytes) (c : Bool) (h : b ≠ []) : RaisesOnly PrivateKeyError (PrivateKey.fromWifBody b c) := by
  cases b with
  | nil => exact absurd rfl h
  | cons b rest =>
    unfold PrivateKey.fromWifBody
    simp only
    split
    · next e he =>
      unfold PrivateKey.findNetwork at he
      split at he <;> cases he
      exact raises_error.2 trivial
    · exact raises_make _ _ _

theorem decodeBase58h_cases (H : Hashes) (t : Text) :
    (∃ b, decodeBase58h H t = .ok b ∧ Ascii t) ∨ (decodeBase58h H t = .error .invalidBase58h ∧ Ascii t) ∨
    (decodeBase58h H t = .error .unicodeDecodeError ∧ ¬ Ascii t) := by
  by_cases ha : isAscii t = true
  · cases hd : decodeBase58h H t with
    | ok b => exact .inl ⟨b, rfl, (isAscii_iff t).1 ha⟩
    | error e =>
      rcases decodeBase58h_error H t e hd with rfl | ⟨_, h⟩
      · exact .inr (.inl ⟨rfl, (isAscii_iff t).1 ha⟩)
      · rw [ha] at h; cases h
  · refine .inr (.inr ⟨?_, fun h => ha ((isAscii_iff t).2 h)⟩)
    unfold decodeBase58h a2bHashedBase58 a2bBase58
    rw [if_neg ha]

theorem raises_base58 {α : Type} {P : Err → Prop} {t : Text} {H : Hashes} {bad : Err} {f : Bytes → Except Err α}
    (hbad : P bad) (hne : ¬ P .unicodeDecodeError) (hf : ∀ b, RaisesOnly P (f b)) :
    RaisesOnly P (match decodeBase58h H t with
      | .error .invalidBase58h => .error bad
      | .error e => .error e
      | .ok b => f b) ↔ Ascii t := by
  rcases decodeBase58h_cases H t with ⟨b, h, ha⟩ | ⟨h, ha⟩ | ⟨h, ha⟩ <;> rw [h] <;> simp only [ha, iff_true, iff_false]
  · exact hf b
  · exact raises_error.2 hbad
  · exact fun h' => hne (raises_error.1 h')

/-- C88, part that holds: `from_wif` and `from_hex` raise only exceptions derived from `PrivateKey.Error`, if and only
if the text is ASCII.  Missing: other texts. -/
theorem C88_private_text_partial (H : Hashes) (t : Text) (net : NetValue) (c : Bool) :
    (RaisesOnly PrivateKeyError (PrivateKey.fromWif H t) ↔ Ascii t) ∧
    (RaisesOnly PrivateKeyError (PrivateKey.fromHex t net c) ↔ Ascii t) := by
  constructor
  · refine raises_base58 trivial (by simp [PrivateKeyError]) fun b => ?_
    split
    · next h => exact raises_wifBody _ _ (by rintro rfl; cases h)
    · split
      · next h =>
        split
        · exact raises_error.2 trivial
        · refine raises_wifBody _ _ fun h' => ?_
          have := congrArg List.length h'
          rw [List.length_dropLast, h] at this
          cases this
      · exact raises_error.2 trivial
  · exact raises_hex trivial (by simp [PrivateKeyError]) fun b => (C88_private_bytes b none net c 0).2

/-! ## Addresses -/

/-- C88. The constructor and `from_bytes` of addresses raise only exceptions derived from `Address.Error`. -/
theorem C88_address_bytes (b : Bytes) (net : NetValue) (type : Option AddrType) :
    RaisesOnly AddressError (Address.new b net type) ∧ RaisesOnly AddressError (Address.fromBytes b) := by
  have hnew : ∀ b net type, RaisesOnly AddressError (Address.new b net type) := by
    intro b net type
    unfold Address.new
    split
    · exact raises_error.2 trivial
    · split
      · exact raises_error.2 trivial
      · split
        · exact raises_error.2 trivial
        · exact raises_ok _
  refine ⟨hnew _ _ _, ?_⟩
  unfold Address.fromBytes
  split
  · exact raises_error.2 trivial
  · next hl =>
    split
    · next e he =>
      unfold Address.classifyBytes at he
      split at he
      · exact absurd (by simp) hl
      · split at he
        · cases he
        · split at he
          · cases he
          · cases he; exact raises_error.2 trivial
    · exact hnew _ _ _

/-- C88, part that holds: `from_string` and `from_hex` raise only exceptions derived from `Address.Error`, if and only
if the text is ASCII. -/
theorem C88_address_text_partial (H : Hashes) (t : Text) :
    (RaisesOnly AddressError (Address.fromString H t) ↔ Ascii t) ∧
    (RaisesOnly AddressError (Address.fromHex t) ↔ Ascii t) :=
  ⟨raises_base58 trivial (by simp [AddressError]) fun b => (C88_address_bytes b (.network .livenet) none).2,
    raises_hex trivial (by simp [AddressError]) fun b => (C88_address_bytes b (.network .livenet) none).2⟩

/-! ## Public keys -/

theorem secToPublicPair_errors {b : Data} {e : Err} (h : secToPublicPair b = .error e) :
    e = .valueError ∨ e = .encodingError ∨ e = .unicodeDecodeError := by
  have h32 : ∀ v e, fromBytes32 v = .error e → e = .valueError ∨ e = .encodingError ∨ e = .unicodeDecodeError := by
    intro v e h
    unfold fromBytes32 at h
    split at h
    · cases h; exact .inl rfl
    · split at h
      · cases h; exact .inr (by split <;> simp)
      · split at h <;> cases h
        exact .inr (.inl rfl)
  unfold secToPublicPair at h
  cases hx : fromBytes32 (b.slice 1 33) with
  | error e' =>
    rw [hx] at h
    cases h
    exact h32 _ _ hx
  | ok x =>
    rw [hx] at h
    simp only [bind, Except.bind] at h
    split at h
    · cases hy : fromBytes32 (b.slice 33 65) with
      | error e' => rw [hy] at h; cases h; exact h32 _ _ hy
      | ok y =>
        rw [hy] at h
        simp only at h
        split at h <;> cases h
        exact .inr (.inl rfl)
    · split at h
      · obtain ⟨y, hy, -⟩ := publicPairForX_spec (x : Int) (decide (List.take 1 b.val = [2]))
        rw [hy] at h
        cases h
      · cases h; exact .inr (.inl rfl)

/-- C88. The constructor and `from_bytes` of public keys raise only exceptions derived from `PublicKey.Error`. -/
theorem C88_public_bytes (b : Data) (pair : Int × Int) (net : NetValue) (c : Bool) :
    RaisesOnly PublicKeyError (PublicKey.new pair net c) ∧ RaisesOnly PublicKeyError (PublicKey.fromBytes b net) := by
  have hnew : ∀ pair net c, RaisesOnly PublicKeyError (PublicKey.new pair net c) := by
    intro pair net c
    unfold PublicKey.new PublicKey.findNetwork
    split
    · next h =>
      split at h <;> cases h
      exact raises_error.2 trivial
    · split
      · exact raises_ok _
      · exact raises_error.2 trivial
  refine ⟨hnew _ _ _, ?_⟩
  unfold PublicKey.fromBytes
  split
  · next e he =>
    rcases secToPublicPair_errors he with rfl | rfl | rfl
    · exact raises_error.2 trivial
    · exact raises_error.2 trivial
    · exact raises_error.2 trivial
  · exact hnew _ _ _

/-- C88, part that holds: `PublicKey.from_hex` raises only exceptions derived from `PublicKey.Error`, if and only if
the text is ASCII. -/
theorem C88_public_text_partial (t : Text) (net : NetValue) :
    RaisesOnly PublicKeyError (PublicKey.fromHex t net) ↔ Ascii t :=
  raises_hex trivial (by simp [PublicKeyError]) fun b => (C88_public_bytes ⟨.str, b⟩ (0, 0) net true).2

/-- C88 is false of the code: a text that is not ASCII makes each of these functions raise an exception of Python. -/
theorem C88_unicode_refuted (H : Hashes) (t : Text) (h : ¬ Ascii t) :
    PrivateKey.fromWif H t = .error .unicodeDecodeError ∧ Address.fromString H t = .error .unicodeDecodeError ∧
    HDPrivateKey.fromString H t = .error .unicodeDecodeError ∧ HDPublicKey.fromString H t = .error .unicodeDecodeError ∧
    PrivateKey.fromHex t = .error .unicodeEncodeError ∧ Address.fromHex t = .error .unicodeEncodeError ∧
    PublicKey.fromHex t = .error .unicodeEncodeError ∧ Transaction.fromHex t = .error .unicodeEncodeError := by
  rw [← not_ascii_iff] at h
  have h1 : decodeBase58h H t = .error .unicodeDecodeError := by
    unfold decodeBase58h a2bHashedBase58 a2bBase58
    rw [h]; rfl
  have h2 : decodeHex t = .error .unicodeEncodeError := by
    unfold decodeHex
    rw [h]; rfl
  have h3 : a2bHashedBase58 H t = .error .unicodeDecodeError := by
    unfold a2bHashedBase58 a2bBase58
    rw [h]; rfl
  refine ⟨?_, ?_, ?_, ?_, ?_, ?_, ?_, ?_⟩
  · unfold PrivateKey.fromWif; rw [h1]
  · unfold Address.fromString; rw [h1]
  · unfold HDPrivateKey.fromString; rw [h3]
  · unfold HDPublicKey.fromString; rw [h3]
  · unfold PrivateKey.fromHex; rw [h2]
  · unfold Address.fromHex; rw [h2]
  · unfold PublicKey.fromHex; rw [h2]
  · unfold Transaction.fromHex; rw [h2]

/-! ## Extended keys -/

theorem a2bHashed_error {H : Hashes} {t : Text} {e : Err} (h : a2bHashedBase58 H t = .error e) :
    e = .encodingError ∨ e = .unicodeDecodeError := by
  unfold a2bHashedBase58 at h
  split at h
  · next e' h' =>
    cases h
    unfold a2bBase58 at h'
    split at h'
    · split at h' <;> cases h'
      exact .inl rfl
    · cases h'; exact .inr rfl
  · split at h <;> cases h
    exact .inl rfl

theorem bitforge_private (e : Err) (h : PrivateKeyError e) : BitforgeError e := by cases e <;> trivial

theorem bitforge_public (e : Err) (h : PublicKeyError e) : BitforgeError e := by cases e <;> trivial

theorem bitforge_address (e : Err) (h : AddressError e) : BitforgeError e := by cases e <;> trivial

theorem bitforge_transaction (e : Err) (h : TransactionError e) : BitforgeError e := by cases e <;> trivial

theorem raises_find (v : NetValue) (attr : String) : RaisesOnly BitforgeError (Network.find v attr) := by
  unfold Network.find
  split
  · exact raises_ok _
  · exact raises_error.2 trivial

theorem raises_hdpriv (H : Hashes) (data : Bytes) : RaisesOnly BitforgeError (HDPrivateKey.fromData H data) := by
  unfold HDPrivateKey.fromData
  extract_lets
  split
  · next e h => exact raises_error.2 (raises_find _ _ e h)
  · split
    · next e h => exact raises_error.2 (bitforge_private e ((C88_private_bytes _ none _ _ 0).2 e h))
    · next net _ _ k h =>
      unfold PrivateKey.fromBytes at h
      split at h
      · cases h
      · obtain ⟨n, -, h0, h1, rfl⟩ := (make_ok_iff _ _ _ _).1 h
        obtain ⟨x, y, f, -, -, -, -, -, -, -, hk⟩ := hdpriv_new H _ n true h0 h1 (cut data 13 45)
          (intFromBytes (cut data 4 5)) (intFromBytes (cut data 9 13)) (intFromBytes (cut data 5 9)) net
        intro e he
        rw [hk] at he
        cases he

theorem raises_hdpub (H : Hashes) (data : Bytes) : RaisesOnly BitforgeError (HDPublicKey.fromData H data) := by
  unfold HDPublicKey.fromData
  extract_lets
  split
  · next e h => exact raises_error.2 (raises_find _ _ e h)
  · split
    · next e h => exact raises_error.2 (bitforge_public e ((C88_public_bytes _ (0, 0) _ true).2 e h))
    · next k h =>
      unfold HDPublicKey.new fingerprintOf
      rw [C19_prefix_partial _ _ _ h]
      exact raises_ok _

/-- C88, part that holds: reading an extended key raises only exceptions derived from `BitforgeError`, if and only if
the text is Base58Check.  Missing: other texts. -/
theorem C88_extended_partial (H : Hashes) (t : Text) :
    (RaisesOnly BitforgeError (HDPrivateKey.fromString H t) ↔ ∃ d, Base58Check H d t) ∧
    (RaisesOnly BitforgeError (HDPublicKey.fromString H t) ↔ ∃ d, Base58Check H d t) := by
  unfold HDPrivateKey.fromString HDPublicKey.fromString
  cases h : a2bHashedBase58 H t with
  | ok d =>
    have hd : ∃ d, Base58Check H d t := ⟨d, check_of_a2b h⟩
    simp only [hd, iff_true]
    exact ⟨raises_hdpriv H d, raises_hdpub H d⟩
  | error e =>
    have hd : ¬ ∃ d, Base58Check H d t := by
      rintro ⟨d, hd⟩
      rw [a2b_of_check hd] at h
      cases h
    have he : ¬ BitforgeError e := by
      rcases a2bHashed_error h with rfl | rfl <;> exact fun h => h
    simp only [hd, iff_false]
    exact ⟨fun h => he (raises_error.1 h), fun h => he (raises_error.1 h)⟩

/-- C88 is false of the code: an ASCII text that is not Base58Check makes both functions raise the `EncodingError` of
the utilities, which is not a `BitforgeError`. -/
theorem C88_extended_refuted (H : Hashes) (t : Text) (ha : Ascii t) (h : ¬ ∃ d, Base58Check H d t) :
    HDPrivateKey.fromString H t = .error .encodingError ∧ HDPublicKey.fromString H t = .error .encodingError := by
  unfold HDPrivateKey.fromString HDPublicKey.fromString
  cases hd : a2bHashedBase58 H t with
  | ok d => exact absurd ⟨d, check_of_a2b hd⟩ h
  | error e =>
    unfold a2bHashedBase58 a2bBase58 at hd
    rw [if_pos ((isAscii_iff t).2 ha)] at hd
    have : e = .encodingError := by
      split at hd
      · next h' => split at h' <;> cases h'; cases hd; rfl
      · split at hd <;> cases hd
        rfl
    subst this
    exact ⟨rfl, rfl⟩

/-! ## Scripts -/

/-- C88. `Opcode(number)` and `Opcode.from_name` raise only exceptions derived from `BitforgeError`. -/
theorem C88_opcode (n : Int) (t : Text) :
    RaisesOnly BitforgeError (Opcode.make n) ∧ RaisesOnly BitforgeError (Opcode.fromName t) := by
  unfold Opcode.make Opcode.fromName
  constructor
  · split
    · exact raises_error.2 trivial
    · exact raises_ok _
  · split
    · exact raises_error.2 trivial
    · split
      · exact raises_ok _
      · exact raises_error.2 trivial

/-- C88, part that holds: reading a script from bytes raises only exceptions derived from `BitforgeError`, unless the
bytes are complete instructions of a shape that trips the classifier. -/
theorem C88_script_partial (b : Bytes) :
    RaisesOnly BitforgeError (Script.fromBytes b) ↔ ¬ ∃ ws, Encodes ws b ∧ Crashes (shape ws) := by
  by_cases h : ∃ ws, Encodes ws b
  · obtain ⟨ws, h⟩ := h
    rcases C30_complete_partial ws b h with ⟨hc, s, hs, -⟩ | ⟨hc, he⟩
    · rw [hs]
      refine ⟨fun _ => ?_, fun _ => raises_ok _⟩
      rintro ⟨ws', h', hc'⟩
      have : Script.fromBytes b = .error .attributeError := by
        rcases C30_complete_partial ws' b h' with ⟨hn, -⟩ | ⟨-, he⟩
        · exact absurd hc' hn
        · exact he
      rw [this] at hs
      cases hs
    · rw [he, raises_error]
      exact ⟨False.elim, fun h' => h' ⟨ws, h, hc⟩⟩
  · obtain ⟨r, q, hr, -⟩ := C30_truncated b h
    rw [hr, raises_error]
    exact ⟨fun _ => fun ⟨ws, hw, _⟩ => h ⟨ws, hw⟩, fun _ => trivial⟩

/-- What `decode_hex` raises within `Script.from_string`. -/
theorem raises_pushArgument (t : Text) (e : Err) (h : Script.pushArgument t = .error e) :
    BitforgeError e ∨ e = .unicodeEncodeError ∧ ¬ Ascii t := by
  unfold Script.pushArgument decodeHex at h
  split at h
  · cases h; exact .inl trivial
  · split at h
    · split at h <;> cases h
      exact .inl trivial
    · next hn =>
      cases h
      refine .inr ⟨rfl, fun ha => hn ((isAscii_iff _).2 fun c hc => ha c (List.mem_of_mem_drop hc))⟩

theorem raises_int (t : Text) (e : Err) (hd : isDigitText t = true) (h : intOfDigits t = .error e) :
    (e = .unicodeEncodeError ∨ e = .valueError) ∧ ¬ Ascii t := by
  obtain ⟨h1, c, hc, h2⟩ := intOfDigits_ascii_only hd h
  exact ⟨h1, fun ha => absurd (ha c hc) (by omega)⟩

theorem raises_getOpcode (t : Text) (e : Err) (h : Script.getOpcode t = .error e) :
    BitforgeError e ∨ (e = .unicodeEncodeError ∨ e = .valueError) ∧ ¬ Ascii t := by
  unfold Script.getOpcode at h
  split at h
  · cases h
  · split at h
    · next hd =>
      split at h
      · next e' hi =>
        injection h with h
        exact .inr (raises_int t e hd (h ▸ hi))
      · unfold Opcode.constPushFor at h
        split at h
        · injection h with h
          exact .inl (h ▸ trivial)
        · exact .inl ((C88_opcode _ []).1 e h)
    · injection h with h
      exact .inl (h ▸ trivial)

theorem raises_instr (o : Opcode) (b : Bytes) (h : o.isPush = true) :
    RaisesOnly BitforgeError (Instruction.make o (some ⟨.str, b⟩)) := by
  unfold Instruction.make
  rw [if_pos h]
  simp only
  split
  · exact raises_error.2 trivial
  · exact raises_ok _

theorem raises_plain (o : Opcode) (h : o.isPush = false) : ∃ i, Instruction.make o = .ok i := by
  unfold Instruction.make
  rw [h]
  exact ⟨_, rfl⟩

theorem raises_map {α β : Type} {P : Err → Prop} {x : Except Err α} (f : α → β) (h : RaisesOnly P x) :
    RaisesOnly P (x.map f) := by
  cases x with
  | ok a => exact raises_ok _
  | error e => exact raises_error.2 (raises_error.1 h)

theorem raises_readTokens : ∀ (n : Nat) (toks : List Text), toks.length ≤ n →
    RaisesOnly (fun e => BitforgeError e ∨ (e = .unicodeEncodeError ∨ e = .valueError) ∧ ∃ t ∈ toks, ¬ Ascii t)
      (Script.readTokens toks) := by
  intro n
  induction n with
  | zero =>
    intro toks hl
    rw [List.length_eq_zero_iff.1 (Nat.le_zero.1 hl), readTokens_nil]
    exact raises_ok _
  | succ n ih =>
    intro toks hl
    cases toks with
    | nil => rw [readTokens_nil]; exact raises_ok _
    | cons tok toks =>
      have hl' : toks.length ≤ n := by simp at hl; exact hl
      unfold Script.readTokens
      split
      · next e h =>
        exact raises_error.2 ((raises_getOpcode _ e h).imp id fun ⟨h1, h2⟩ => ⟨h1, tok, by simp, h2⟩)
      · next op _ =>
        split
        · next hc =>
          split
          · exact raises_error.2 (.inl trivial)
          · next hex toks =>
            split
            · next e h =>
              rcases raises_pushArgument _ _ h with h | ⟨h, h'⟩
              · exact raises_error.2 (.inl h)
              · exact raises_error.2 (.inr ⟨.inl h, hex, by simp, h'⟩)
            · next b _ =>
              split
              · next e h => exact raises_error.2 (.inl (raises_instr op b (by unfold Opcode.isPush; rw [hc]; rfl) e h))
              · refine raises_map _ (raises_mono (ih toks (by simp at hl'; omega)) fun e he => ?_)
                exact he.imp id fun ⟨h1, t, h2, h3⟩ => ⟨h1, t, by simp [h2], h3⟩
        · next hc =>
          split
          · next hv =>
            split
            · next size hex toks =>
              split
              · exact raises_error.2 (.inl trivial)
              · next hd =>
                split
                · next e h =>
                  rcases raises_pushArgument _ _ h with h | ⟨h, h'⟩
                  · exact raises_error.2 (.inl h)
                  · exact raises_error.2 (.inr ⟨.inl h, hex, by simp, h'⟩)
                · next b _ =>
                  split
                  · next e h =>
                    obtain ⟨h1, h2⟩ := raises_int size e (not_not.1 hd) h
                    exact raises_error.2 (.inr ⟨h1, size, by simp, h2⟩)
                  split
                  · exact raises_error.2 (.inl trivial)
                  · split
                    · next e h =>
                      exact raises_error.2 (.inl (raises_instr op b (by unfold Opcode.isPush; rw [hv, Bool.or_true]) e h))
                    · refine raises_map _ (raises_mono (ih toks (by simp at hl'; omega)) fun e he => ?_)
                      exact he.imp id fun ⟨h1, t, h2, h3⟩ => ⟨h1, t, by simp [h2], h3⟩
            · exact raises_error.2 (.inl trivial)
          · next hv =>
            obtain ⟨i, hi⟩ := raises_plain op (by unfold Opcode.isPush; simp only [hc, hv]; rfl)
            rw [hi]
            refine raises_map _ (raises_mono (ih toks hl') fun e he => ?_)
            exact he.imp id fun ⟨h1, t, h2, h3⟩ => ⟨h1, t, by simp [h2], h3⟩

theorem splitSpace_sub : ∀ (t : Text), ∀ w ∈ splitSpace t, ∀ c ∈ w, c ∈ t := by
  intro t
  induction t with
  | nil => intro w hw c hc; simp only [splitSpace, List.mem_singleton] at hw; subst hw; cases hc
  | cons x t ih =>
    intro w hw c hc
    unfold splitSpace at hw
    split at hw
    · rcases List.mem_cons.1 hw with rfl | hw
      · cases hc
      · exact List.mem_cons_of_mem _ (ih w hw c hc)
    · split at hw
      · next h => simp only [List.mem_singleton] at hw; subst hw; simp at hc; simp [hc]
      · next y ys h =>
        rcases List.mem_cons.1 hw with rfl | hw
        · rcases List.mem_cons.1 hc with rfl | hc
          · simp
          · exact List.mem_cons_of_mem _ (ih y (by rw [h]; simp) c hc)
        · exact List.mem_cons_of_mem _ (ih w (by rw [h]; simp [hw]) c hc)

/-- C88, part that holds: reading a script from an ASCII text raises only exceptions derived from `BitforgeError`, unless
the text spells a script of a shape that trips the classifier. -/
theorem C88_script_text_partial (t : Text) (ha : Ascii t) :
    RaisesOnly BitforgeError (Script.fromText t) ↔
      ¬ ∃ toks ws, Spelled toks ws ∧ t = [' '].intercalate toks ∧ Crashes (shape ws) := by
  have hn : ∀ w ∈ splitSpace t, Ascii w := fun w hw c hc => ha c (splitSpace_sub t w hw c hc)
  unfold Script.fromText
  have hr := raises_readTokens _ (splitSpace t) (le_refl _)
  cases h : Script.readTokens (splitSpace t) with
  | error e =>
    have he : BitforgeError e := by
      rcases hr e h with h | ⟨-, w, hw, h⟩
      · exact h
      · exact absurd (hn w hw) h
    simp only [raises_error, he, true_iff]
    rintro ⟨toks, ws, hs, rfl, hc⟩
    rw [← joinSpace_eq, splitSpace_join _ (spelled_ne hs ?_) (spelled_no_space hs), readTokens_spelled hs] at h
    · cases h
    · rintro rfl
      exact absurd hc.1 (by simp [shape])
  | ok is =>
    obtain ⟨ws, hw, rfl⟩ := readTokens_sound _ _ _ (le_refl _) h
    simp only [Script.create]
    have := classify_spec (ws.map ofWireStr)
    rw [map_wire_ofWireStr] at this
    rcases this with ⟨h1, h2⟩ | ⟨h1, c, h2, -⟩
    · rw [h2]
      simp only [raises_error]
      obtain ⟨-, -, h3⟩ := splitSpace_spec t
      exact ⟨False.elim, fun h => h ⟨splitSpace t, ws, hw, by rw [← joinSpace_eq, h3], h1⟩⟩
    · rw [h2]
      simp only [raises_ok, true_iff]
      rintro ⟨toks, ws', hs, rfl, hc⟩
      rw [← joinSpace_eq, splitSpace_join _ (spelled_ne hs ?_) (spelled_no_space hs), readTokens_spelled hs] at h
      · injection h with h
        have := congrArg (List.map Instruction.wire) h
        rw [map_wire_ofWireStr, map_wire_ofWireStr] at this
        exact h1 (this ▸ hc)
      · rintro rfl
        exact absurd hc.1 (by simp [shape])

/-! ## Transactions -/

/-- C88. `Transaction(...)` raises only exceptions derived from `Transaction.Error`. -/
theorem C88_transaction_new (is : List (Option Input)) (os : List (Option Output)) (l v : Int) :
    RaisesOnly TransactionError (Transaction.new is os l v) := by
  unfold Transaction.new
  split
  · exact raises_error.2 trivial
  · split
    · exact raises_error.2 trivial
    · split
      · exact raises_error.2 trivial
      · split
        · exact raises_error.2 trivial
        · split
          · exact raises_error.2 trivial
          · exact raises_ok _

/-- C88, part that holds: reading an input, an output or a transaction from bytes raises only exceptions derived from
`BitforgeError`, or an AttributeError (from the classifier) or OverflowError (from `range`).  Missing: these two. -/
theorem C88_transaction_partial (b : Bytes) (c : InputClass) :
    RaisesOnly (fun e => BitforgeError e ∨ e = .attributeError) (Input.fromBytes b c) ∧
    RaisesOnly (fun e => BitforgeError e ∨ e = .attributeError) (Output.fromBytes b) ∧
    RaisesOnly (fun e => BitforgeError e ∨ e = .attributeError ∨ e = .overflowError) (Transaction.fromBytes b) := by
  refine ⟨fun e h => ?_, fun e h => ?_, fun e h => ?_⟩
  · exact fails_input (P := fun e => BitforgeError e ∨ e = .attributeError) (fun _ _ => .inl trivial) (.inr rfl) c b e
      (Input.fromBuffer c b).2 (Prod.ext h rfl)
  · exact fails_output (P := fun e => BitforgeError e ∨ e = .attributeError) (fun _ _ => .inl trivial) (.inr rfl) b e
      (Output.fromBuffer b).2 (Prod.ext h rfl)
  · exact fails_tx (P := fun e => BitforgeError e ∨ e = .attributeError ∨ e = .overflowError) (fun _ _ => .inl trivial)
      (.inr (.inl rfl)) (.inr (.inr rfl)) (.inl trivial) (.inl trivial) b e (Transaction.fromBuffer b).2 (Prod.ext h rfl)

/-- C88 is false of the code: a count of at least `2^63` inputs makes `range` raise OverflowError. -/
theorem C88_count_refuted (v c rest : Bytes) (hv : v.length = 4) (hc : c.length = 8) (h : 2 ^ 63 ≤ leValue c) :
    Transaction.fromBytes (v ++ 255 :: (c ++ rest)) = .error .overflowError := by
  unfold Transaction.fromBytes Transaction.fromBuffer
  have h1 : Buffer.readVarint (255 :: (c ++ rest)) = (.ok (leValue c), rest) := by
    rw [readVarint_cons, if_neg (by decide), if_neg (by decide), if_neg (by decide),
      Rd.bind_ok (read_append' 8 c rest hc), ← decodeInt_little]
    rfl
  rw [Rd.bind_ok (read_append' 4 v _ hv), Rd.bind_ok h1, Rd.bind_err (e := .overflowError) (s' := rest)]
  unfold Rd.lift Transaction.pyRange
  rw [if_neg (by omega)]

/-- C88 is false of the code: a transaction whose first input has a script that trips the classifier raises
AttributeError, whatever follows the script. -/
theorem C88_classifier_refuted (v id ix script rest : Bytes) (n : Nat) (hv : v.length = 4) (hid : id.length = 32)
    (hix : ix.length = 4) (hn : 0 < n ∧ n < 253) (hs : script.length < 253) (ws : List WireInstr)
    (he : Encodes ws script) (hc : Crashes (shape ws)) :
    Transaction.fromBytes (v ++ byte n :: (id ++ (ix ++ byte script.length :: (script ++ rest)))) =
      .error .attributeError := by
  have hscript : Script.fromBytes script = .error .attributeError := by
    rcases C30_complete_partial ws script he with ⟨h, -⟩ | ⟨-, h⟩
    · exact absurd hc h
    · exact h
  unfold Transaction.fromBytes Transaction.fromBuffer
  have h1 : ∀ k s, k < 253 → Buffer.readVarint (byte k :: s) = (.ok k, s) := by
    intro k s hk
    have hb : (byte k).val = k := Nat.mod_eq_of_lt (by omega)
    rw [readVarint_cons, if_pos (by rw [hb]; exact hk), hb]
  obtain ⟨m, rfl⟩ : ∃ m, n = m + 1 := ⟨n - 1, by omega⟩
  have h2 : Transaction.pyRange (m + 1) = .ok (m + 1) := if_pos (by omega)
  have h3 : Input.fromBuffer .generic (id ++ (ix ++ byte script.length :: (script ++ rest))) =
      (.error .attributeError, rest) := by
    unfold Input.fromBuffer
    rw [Rd.bind_ok (read_append' 32 id _ hid), Rd.bind_ok (read_append' 4 ix _ hix), Rd.bind_ok (h1 _ _ hs),
      Rd.bind_ok (read_append' _ script _ rfl), Rd.bind_err (e := .attributeError) (s' := rest)]
    unfold Rd.lift
    rw [hscript]
  rw [Rd.bind_ok (read_append' 4 v _ hv), Rd.bind_ok (h1 _ _ hn.2),
    Rd.bind_ok (a := m + 1) (s' := id ++ (ix ++ byte script.length :: (script ++ rest))) (by unfold Rd.lift; rw [h2]),
    Rd.bind_err (e := .attributeError) (s' := rest)]
  unfold Transaction.readMany
  rw [Rd.bind_err h3]

/-! ## Examples -/

/-- Texts that the theorems tell apart. -/
example : Ascii "5K".toList ∧ ¬ Ascii "é".toList := by
  constructor <;> simp [Ascii]

example : PrivateKey.fromWif .toy "0".toList = .error .privInvalidBase58h ∧ PrivateKeyError .privInvalidBase58h ∧
    Address.fromHex "zz".toList = .error .addrInvalidHex ∧ AddressError .addrInvalidHex ∧
    PublicKey.fromBytes ⟨.str, [5]⟩ = .error .pubInvalidBinary ∧ PublicKeyError .pubInvalidBinary := by
  refine ⟨by decide +kernel, trivial, by decide +kernel, trivial, by decide +kernel, trivial⟩

/-- A script that trips the classifier, as text and as bytes. -/
example : Script.fromText "1 0x07 1 0x07 1 0x07 1 0x07".toList = .error .attributeError ∧
    Script.fromBytes [1, 7, 1, 7, 1, 7, 1, 7] = .error .attributeError ∧
    Script.fromText "1 0x0".toList = .error .invalidHex ∧ Script.fromText "76 0x00".toList = .error .opInvalidConstPushLength := by
  refine ⟨by decide +kernel, by decide +kernel, by decide +kernel, by decide +kernel⟩

example : Transaction.fromBytes ([1, 0, 0, 0] ++ 255 :: ([0, 0, 0, 0, 0, 0, 0, 128] ++ [])) = .error .overflowError :=
  C88_count_refuted _ _ _ rfl rfl (by decide)

end Bitforge
