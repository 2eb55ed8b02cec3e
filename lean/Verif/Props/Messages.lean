import Verif.Proofs.Sentences
import Verif.Proofs.Literal
import Verif.Props.Repr
import Verif.Props.Errors

/-! # C90: error messages -/

namespace Bitforge
open Spec

/-! ## Formatting -/

theorem format_say (fields : List (String × Text)) (w t : Text) (h : w.all fun c => c ≠ '{' ∧ c ≠ '}') :
    formatFields fields none (w ++ t) = (formatFields fields none t).map (w ++ ·) := by
  induction w with
  | nil =>
    rw [List.nil_append]
    cases formatFields fields none t <;> rfl
  | cons c w ih =>
    simp only [List.all_cons, Bool.and_eq_true, decide_eq_true_eq] at h
    rw [List.cons_append, formatFields, if_neg h.1.1, if_neg h.1.2, ih h.2]
    cases formatFields fields none t <;> rfl

theorem format_name (fields : List (String × Text)) (f r t : Text) (h : f.all fun c => c ≠ '}') :
    formatFields fields (some r) (f ++ '}' :: t) =
      match fields.find? fun x => x.1.toList = r.reverse ++ f with
      | none => .error .keyError
      | some x => (formatFields fields none t).map (x.2 ++ ·) := by
  induction f generalizing r with
  | nil => 
    rw [List.nil_append, formatFields, if_pos rfl, List.append_nil]
    cases fields.find? fun x => x.1.toList = r.reverse <;> rfl
  | cons c f ih =>
    simp only [List.all_cons, Bool.and_eq_true, decide_eq_true_eq] at h
    rw [List.cons_append, formatFields, if_neg h.1, ih _ h.2]
    simp

theorem format_reads (fields : List (String × Text)) (about : About) : ∀ ps : List Part, ps.all cleanPart = true →
    (∀ f ∈ fieldNames ps, ∃ x, fields.find? (fun y => y.1.toList = f.toList) = some x ∧ about f x.2) →
    ∃ m, formatFields fields none ((ps.map partText).flatten) = .ok m ∧ Reads about ps m
  | [], _, _ => ⟨[], rfl, rfl⟩
  | .say w :: ps, hc, h => by
    simp only [List.all_cons, Bool.and_eq_true] at hc
    obtain ⟨m, h1, h2⟩ := format_reads fields about ps hc.2 h
    refine ⟨w.toList ++ m, ?_, m, rfl, h2⟩
    show formatFields fields none (w.toList ++ (ps.map partText).flatten) = _
    rw [format_say _ _ _ hc.1, h1]; rfl
  | .field f :: ps, hc, h => by
    simp only [List.all_cons, Bool.and_eq_true] at hc
    obtain ⟨m, h1, h2⟩ := format_reads fields about ps hc.2 fun g hg => h g (List.mem_cons_of_mem _ hg)
    obtain ⟨x, hx, ha⟩ := h f (List.mem_cons_self ..)
    refine ⟨x.2 ++ m, ?_, x.2, m, ha, rfl, h2⟩
    show formatFields fields none ('{' :: (f.toList ++ ['}']) ++ (ps.map partText).flatten) = _
    rw [List.cons_append, formatFields, if_pos rfl, List.append_assoc, List.singleton_append, format_name _ _ _ _ hc.1]
    have hx' : (fields.find? fun y => y.1.toList = [].reverse ++ f.toList) = some x := hx
    rw [hx']
    simp only [h1]; rfl

theorem find_here (f : String) (v : Text) (l : List (String × Text)) :
    ((f, v) :: l).find? (fun y => y.1.toList = f.toList) = some (f, v) := List.find?_cons_of_pos (by simp)

theorem find_next {f g : String} (v : Text) (l : List (String × Text)) (h : g.toList ≠ f.toList) :
    ((g, v) :: l).find? (fun y => y.1.toList = f.toList) = l.find? (fun y => y.1.toList = f.toList) :=
  List.find?_cons_of_neg (by simpa using h)

theorem tells_make {e : Err} {fields : List (String × Text)} {about : About}
    (h : ∀ f ∈ fieldNames (sentence e), ∃ x, fields.find? (fun y => y.1.toList = f.toList) = some x ∧ about f x.2) :
    Tells (Exc.make e fields) e about := by
  obtain ⟨m, h1, h2⟩ := format_reads fields about (sentence e) (sentence_clean e) h
  unfold Exc.make
  rw [doc_sentence, h1]
  exact ⟨rfl, m, rfl, h2⟩

theorem integer_showInt (n : Int) : Integer (showInt n) n := by
  unfold showInt
  split
  · next h => exact .inr ⟨h, _, rfl, decimal_decText _⟩
  · next h =>
    refine .inl ⟨by omega, ?_⟩
    rw [show n.natAbs = n.toNat by omega]
    exact decimal_decText _

theorem showInt_nat (n : Nat) : showInt (n : Int) = Opcode.decText n := by
  unfold showInt
  rw [if_neg (by omega)]; rfl

/-- The exceptions that are about a string. -/
def stringErrors : List Err := [.invalidBase58h, .invalidHex, .invalidScriptNumber, .invalidMinimalScriptNumber,
  .privInvalidWifLength, .privInvalidCompressionByte, .privInvalidBase58h, .privInvalidHex, .privInvalidBinaryLength,
  .pubInvalidBinary, .pubInvalidHex, .addrInvalidBase58h, .addrInvalidHex, .addrInvalidHashLength,
  .addrInvalidBinaryLength, .opUnknownName, .scrMissingPushArguments, .scrInvalidPushSize, .scrInvalidPushData,
  .scrUnknownOpcodeName]

/-- The exceptions that are about a number. -/
def numberErrors : List Err := [.privInvalidSecret, .addrInvalidVersion, .opUnknownNumber, .opInvalidConstPushLength,
  .opInvalidPushLength, .scrInvalidPushDataLength, .txInvalidLockTime, .outTooMuchData]

theorem tells_string {e : Err} (he : e ∈ stringErrors) (v : StrValue) : Tells (Exc.string e v) e (aboutString v) := by
  refine tells_make fun f hf => ?_
  have : ∀ e ∈ stringErrors, ∀ f ∈ fieldNames (sentence e), f = "string" ∨ f = "length" := by decide +kernel
  rcases this e he f hf with rfl | rfl
  · exact ⟨("string", v.repr), find_here .., .inl ⟨rfl, literal_repr v⟩⟩
  · refine ⟨("length", showInt v.length), (find_next _ _ (by decide +kernel)).trans (find_here ..), .inr ⟨rfl, ?_⟩⟩
    rw [showInt_nat]; exact decimal_decText _

theorem tells_number {e : Err} (he : e ∈ numberErrors) (n : Int) : Tells (Exc.number e n) e (aboutNumber n) := by
  refine tells_make fun f hf => ?_
  have : ∀ e ∈ numberErrors, ∀ f ∈ fieldNames (sentence e), f = "number" := by decide +kernel
  rw [this e he f hf]
  exact ⟨("number", showInt n), find_here .., rfl, integer_showInt n⟩

theorem tells_object {e : Err} (he : e ∈ [Err.pubInvalidPair, .addrInvalidType, .txNotAnInput, .txNotAnOutput, .insUnexpectedData])
    (t : Text) : Tells (Exc.object e t) e (aboutObject t) := by
  refine tells_make fun f hf => ?_
  have : ∀ e ∈ [Err.pubInvalidPair, .addrInvalidType, .txNotAnInput, .txNotAnOutput, .insUnexpectedData],
      ∀ f ∈ fieldNames (sentence e), f = "object" := by decide +kernel
  rw [this e he f hf]
  exact ⟨("object", t), find_here .., rfl, rfl⟩

theorem literals_list (l : List Text) :
    List.Forall₂ (fun x s => IsLiteral x (.unicode s)) (l.map fun t => (StrValue.unicode t).repr) l := by
  induction l with
  | nil => exact .nil
  | cons t l ih => exact .cons (literal_repr _) ih

theorem tells_value {e : Err} (he : e ∈ [Err.unknownNetwork, .privUnknownNetwork, .pubUnknownNetwork, .addrUnknownNetwork])
    (key : String) (v : NetValue) (hv : ∀ n, v ≠ .network n) : Tells (Exc.keyValue e key v) e (aboutValue key v) := by
  refine tells_make fun f hf => ?_
  have : ∀ e ∈ [Err.unknownNetwork, .privUnknownNetwork, .pubUnknownNetwork, .addrUnknownNetwork],
      ∀ f ∈ fieldNames (sentence e), f = "key" ∨ f = "value" := by decide +kernel
  rcases this e he f hf with rfl | rfl
  · exact ⟨("key", key.toList), find_here .., .inl ⟨rfl, rfl⟩⟩
  · refine ⟨("value", Exc.valueText v), (find_next _ _ (by decide +kernel)).trans (find_here ..), .inr ⟨rfl, ?_⟩⟩
    cases v with
    | network n => exact hv n rfl
    | int n => exact integer_showInt n
    | text t => rfl
    | list l =>
      refine ⟨_, literals_list l, ?_⟩
      simp [Exc.valueText, Exc.listText, List.intercalate]

theorem showDecimal (n : Nat) : Decimal (showInt n) n := by rw [showInt_nat]; exact decimal_decText _

theorem direct_range (b : Byte) (h : pushKind b = .direct b.val) : 1 ≤ b.val ∧ b.val ≤ 75 := by
  have : ∀ b : Byte, pushKind b = .direct b.val → 1 ≤ b.val ∧ b.val ≤ 75 := by decide +kernel
  exact this b h

theorem shows_repr {o : Opcode} {t : Text} (h : o.repr = .ok t) : ShowsOpcode o t := by
  have hn : Named o.number := by
    by_contra hn
    rw [(C82_nameless_refuted o hn).1] at h
    cases h
  obtain ⟨t', d, h1, h2, h3⟩ := C82_opcode_partial o hn
  rw [h] at h1
  cases h1
  refine ⟨d, h2, ?_⟩
  rcases h3 with ⟨h3, h4⟩ | h3
  · exact .inl ⟨(direct_range _ h3).1, (direct_range _ h3).2, h4⟩
  · exact .inr h3

theorem tells_opcode {o : Opcode} (hn : Named o.number) :
    Tells (Exc.opcode .insUnexpectedData o) .insUnexpectedData (aboutOpcode o) := by
  obtain ⟨t, d, h1, -⟩ := C82_opcode_partial o hn
  unfold Exc.opcode
  rw [h1]
  refine tells_make fun f hf => ?_
  have : f = "object" := by simpa [sentence, fieldNames] using hf
  rw [this]
  exact ⟨("object", t), find_here .., rfl, shows_repr h1⟩

theorem opcode_nameless {o : Opcode} (hn : ¬ Named o.number) (e : Err) : Exc.opcode e o = .runtime .keyError := by
  unfold Exc.opcode
  rw [(C82_nameless_refuted o hn).1]

theorem tells_wrongType {o : Opcode} (hn : Named o.number) : Tells (Exc.wrongType o) .opWrongType (aboutName o) := by
  obtain ⟨b⟩ := o
  obtain ⟨t, h, -⟩ := name_named b hn
  unfold Exc.wrongType
  rw [h]
  refine tells_make fun f hf => ?_
  have : f = "object.name" := by simpa [sentence, fieldNames] using hf
  rw [this]
  refine ⟨("object.name", t), find_here .., rfl, ?_⟩
  rcases C68_name b t h with h | ⟨h1, d, h2, h3⟩
  · exact .inr h.2.1
  · exact .inl ⟨(direct_range _ h1).1, (direct_range _ h1).2, d, h2, h3⟩

theorem wrongType_nameless {o : Opcode} (hn : ¬ Named o.number) : Exc.wrongType o = .runtime .keyError := by
  obtain ⟨b⟩ := o
  unfold Exc.wrongType
  rw [name_unnamed b hn]

theorem tells_dataLength {o : Opcode} (hn : Named o.number) (n m : Nat) :
    Tells (Exc.dataLength o n m) .insInvalidDataLength (aboutPush o n m) := by
  obtain ⟨t, d, h1, -⟩ := C82_opcode_partial o hn
  unfold Exc.dataLength
  rw [h1]
  refine tells_make fun f hf => ?_
  have : f = "opcode" ∨ f = "data_length" ∨ f = "data_length_max" := by simpa [sentence, fieldNames] using hf
  rcases this with rfl | rfl | rfl
  · exact ⟨("opcode", t), find_here .., .inl ⟨rfl, shows_repr h1⟩⟩
  · exact ⟨("data_length", showInt n), (find_next _ _ (by decide +kernel)).trans (find_here ..),
      .inr (.inl ⟨rfl, showDecimal _⟩)⟩
  · exact ⟨("data_length_max", showInt m), (find_next _ _ (by decide +kernel)).trans
      ((find_next _ _ (by decide +kernel)).trans (find_here ..)), .inr (.inr ⟨rfl, showDecimal _⟩)⟩

theorem tells_insufficient (r q : Nat) :
    Tells (Exc.insufficientData r q) (.insufficientData r q) (aboutRead r q) := by
  refine tells_make fun f hf => ?_
  have : f = "requested" ∨ f = "remaining" := by simpa [sentence, fieldNames] using hf
  rcases this with rfl | rfl
  · exact ⟨("requested", showInt q), (find_next _ _ (by decide +kernel)).trans (find_here ..), .inr ⟨rfl, showDecimal _⟩⟩
  · exact ⟨("remaining", showInt r), find_here .., .inl ⟨rfl, showDecimal _⟩⟩

theorem tells_count (r p : Nat) :
    Tells (Exc.signatureCount r p) .inInvalidSignatureCount (aboutCount r p) := by
  refine tells_make fun f hf => ?_
  have : f = "required" ∨ f = "provided" := by simpa [sentence, fieldNames] using hf
  rcases this with rfl | rfl
  · exact ⟨("required", showInt r), find_here .., .inl ⟨rfl, showDecimal _⟩⟩
  · exact ⟨("provided", showInt p), (find_next _ _ (by decide +kernel)).trans (find_here ..), .inr ⟨rfl, showDecimal _⟩⟩

theorem tells_nothing {e : Err} (he : e ∈ [Err.txNoInputs, .txNoOutputs, .inUnknownSignatureMethod]) :
    Tells (Exc.make e []) e aboutNothing := by
  refine tells_make fun f hf => ?_
  simp only [List.mem_cons, List.not_mem_nil, or_false] at he
  rcases he with rfl | rfl | rfl <;> cases hf

theorem explains_ok {α : Type} {a : α} {P : Exc → Prop} : Explains (.ok a) P (.ok a) := ⟨rfl, fun _ h => by cases h⟩

theorem explains_error {α : Type} {x : Exc} {e : Err} {P : Exc → Prop} (h : x.cls = e) (hp : P x) :
    Explains (α := α) (.error e) P (.error x) := ⟨by rw [← h]; rfl, fun y hy => by cases hy; exact hp⟩

theorem explains_tells {α : Type} {x : Exc} {e : Err} {a : About} {P : Exc → Prop} (h : Tells x e a) (hp : P x) :
    Explains (α := α) (.error e) P (.error x) := explains_error h.1 hp

theorem Spec.Explains.imp {α : Type} {y : Except Err α} {P Q : Exc → Prop} {x : Except Exc α} (h : Explains y P x)
    (hpq : ∀ e, P e → Q e) : Explains y Q x := ⟨h.1, fun e he => hpq e (h.2 e he)⟩

theorem explains_cases {α : Type} {y : Except Err α} {x : Except Exc α} {P : Exc → Prop} (h : Explains y P x) :
    (∃ e z, y = .error e ∧ x = .error z ∧ z.cls = e ∧ P z) ∨ ∃ a, y = .ok a ∧ x = .ok a := by
  obtain ⟨rfl, h⟩ := h
  cases x with
  | error e => exact .inl ⟨_, e, rfl, rfl, rfl, h e rfl⟩
  | ok a => exact .inr ⟨a, rfl, rfl⟩

theorem explains_map {α β : Type} {y : Except Err α} {x : Except Exc α} {P : Exc → Prop} (h : Explains y P x)
    (f : α → β) : Explains (y.map f) P (x.map f) := by
  obtain ⟨rfl, h⟩ := h
  cases x with
  | error e => exact ⟨rfl, fun _ he => by cases he; exact h _ rfl⟩
  | ok a => exact explains_ok

/-- Exceptions that come from the runtime. -/
theorem explains_plain {α : Type} {y : Except Err α} {P : Exc → Prop} (h : ∀ e, y = .error e → ¬ BitforgeError e)
    (hp : ∀ x, Foreign x → P x) : Explains y P (Verbose.plain y) := by
  cases y with
  | error e => exact ⟨rfl, fun _ he => by cases he; exact hp _ ⟨h _ rfl, rfl⟩⟩
  | ok a => exact explains_ok

/-! ## The functions -/

/-- C90. `networks.find`. -/
theorem C90_network (v : NetValue) (attr : String) :
    Explains (Network.find v attr) (fun x => Tells x .unknownNetwork (aboutValue attr v)) (Verbose.findNetwork v attr) := by
  unfold Network.find Verbose.findNetwork
  cases h : Network.find? v attr with
  | some n => exact explains_ok
  | none =>
    have := tells_value (e := .unknownNetwork) (by simp) attr v (by rintro n rfl; cases h)
    exact explains_tells this this

theorem explains_findAs {e : Err} (he : e ∈ [Err.unknownNetwork, .privUnknownNetwork, .pubUnknownNetwork, .addrUnknownNetwork])
    (v : NetValue) (attr : String) :
    Explains ((Network.find v attr).mapError fun _ => e)
      (fun x => Tells x e (aboutValue attr v)) (Verbose.findNetworkAs e v attr) := by
  unfold Network.find Verbose.findNetworkAs Verbose.findNetwork
  cases h : Network.find? v attr with
  | some n => exact explains_ok
  | none =>
    have := tells_value he attr v (by rintro n rfl; cases h)
    exact explains_tells this this

/-- C90. `decode_hex`: a text that is not ASCII is an exception of the runtime. -/
theorem C90_hex (t : Text) : Explains (decodeHex t)
    (fun x => Tells x .invalidHex (aboutString (.unicode t)) ∨ Foreign x) (Verbose.decodeHex t) := by
  have h : ∀ e, decodeHex t = .error e → e = .invalidHex ∨ e = .unicodeEncodeError := by
    unfold decodeHex
    intro e
    split
    · split <;> simp +contextual
    · simp +contextual
  unfold Verbose.decodeHex
  cases hd : decodeHex t with
  | ok b => exact explains_ok
  | error e =>
    rcases h e hd with rfl | rfl
    · have := tells_string (e := .invalidHex) (by decide) (.unicode t)
      exact explains_tells this (.inl this)
    · exact explains_error rfl (.inr ⟨id, rfl⟩)

theorem a2b_errors {H : Hashes} {t : Text} {e : Err} (h : a2bHashedBase58 H t = .error e) :
    e = .encodingError ∨ e = .unicodeDecodeError := by
  unfold a2bHashedBase58 a2bBase58 at h
  by_cases ha : isAscii t = true
  · rw [if_pos ha] at h
    cases hl : toLong 58 base58Lookup t with
    | none => rw [hl] at h; cases h; exact .inl rfl
    | some p =>
      rw [hl] at h
      simp only at h
      split at h <;> cases h
      exact .inl rfl
  · rw [if_neg ha] at h
    cases h
    exact .inr rfl

/-- C90. `decode_base58h`. -/
theorem C90_base58 (H : Hashes) (t : Text) : Explains (decodeBase58h H t)
    (fun x => Tells x .invalidBase58h (aboutString (.unicode t)) ∨ Foreign x) (Verbose.decodeBase58h H t) := by
  unfold decodeBase58h Verbose.decodeBase58h
  cases hd : a2bHashedBase58 H t with
  | ok b => exact explains_ok
  | error e =>
    rcases a2b_errors hd with rfl | rfl
    · have := tells_string (e := .invalidBase58h) (by decide) (.unicode t)
      exact explains_tells this (.inl this)
    · exact explains_error rfl (.inr ⟨id, rfl⟩)

theorem private_find (v : NetValue) (attr : String) :
    PrivateKey.findNetwork v attr = (Network.find v attr).mapError fun _ => .privUnknownNetwork := by
  unfold PrivateKey.findNetwork
  cases Network.find v attr <;> rfl

theorem recast_cases {α : Type} {old new : Err} (hn : new ∈ stringErrors) (ho : BitforgeError old) (t : Text)
    {y : Except Err α} {x : Except Exc α} {a : About} (h : Explains y (fun x => Tells x old a ∨ Foreign x) x) :
    (∃ z, y = .error old ∧ Verbose.recast old new t x = .error z ∧ Tells z new (aboutString (.unicode t))) ∨
    (∃ e z, e ≠ old ∧ y = .error e ∧ Verbose.recast old new t x = .error z ∧ z.cls = e ∧ Foreign z) ∨
    (∃ a, y = .ok a ∧ Verbose.recast old new t x = .ok a) := by
  unfold Verbose.recast
  rcases explains_cases h with ⟨e, z, rfl, rfl, h1, h2⟩ | ⟨a, rfl, rfl⟩
  · rcases h2 with h2 | h2
    · rw [h2.1] at h1
      subst h1
      exact .inl ⟨_, rfl, if_pos h2.1, tells_string hn _⟩
    · have : z.cls ≠ old := fun he => h2.1 (by rw [he]; exact ho)
      exact .inr (.inl ⟨e, z, h1 ▸ this, rfl, if_neg this, h1, h2⟩)
  · exact .inr (.inr ⟨a, rfl, rfl⟩)

/-- C90. The constructor of private keys. -/
theorem C90_private_new (d : Option Int) (net : NetValue) (c : Bool) (r : Int) :
    Explains (PrivateKey.new d net c r)
      (fun x => Tells x .privUnknownNetwork (aboutValue "name" net) ∨
        Tells x .privInvalidSecret (aboutNumber (d.getD r)))
      (Verbose.newPrivateKey d net c r) := by
  unfold PrivateKey.new Verbose.newPrivateKey
  rw [private_find]
  rcases explains_cases (explains_findAs (e := .privUnknownNetwork) (by simp) net "name") with
    ⟨e, z, h1, h2, h3, h4⟩ | ⟨n, h1, h2⟩ <;> rw [h1, h2]
  · exact explains_error h3 (.inl h4)
  simp only
  split
  · have := tells_number (e := .privInvalidSecret) (by decide) (d.getD r)
    exact explains_tells this (.inr this)
  · exact explains_ok

theorem known_network {e : Err} (he : e ∈ [Err.privUnknownNetwork, .pubUnknownNetwork, .addrUnknownNetwork]) {x : Exc}
    {key : String} {n : Network} : ¬ Tells x e (aboutValue key (.network n)) := by
  rintro ⟨-, m, -, h⟩
  have hs : ∃ w w', sentence e = [.say w, .field "key", .say w', .field "value"] := by
    simp only [List.mem_cons, List.not_mem_nil, or_false] at he
    rcases he with rfl | rfl | rfl <;> exact ⟨_, _, rfl⟩
  obtain ⟨w, w', hs⟩ := hs
  rw [hs] at h
  obtain ⟨_, -, _, _, -, -, _, -, _, _, h, -⟩ := h
  rcases h with h | h
  · exact absurd h.1 (by decide)
  · exact h.2

/-- What goes wrong with the payload of a WIF: the network of the first byte or the secret after it. -/
def TellsPayload (b : Bytes) (x : Exc) : Prop :=
  ∃ p s, b = p :: s ∧ (Tells x .privUnknownNetwork (aboutValue "wif_prefix" (.int p.val)) ∨
    Tells x .privInvalidSecret (aboutNumber (beValue s)))

theorem explains_wifBody (b : Bytes) (c : Bool) (hb : b ≠ []) :
    Explains (PrivateKey.fromWifBody b c) (TellsPayload b) (Verbose.fromWifBody b c) := by
  unfold PrivateKey.fromWifBody Verbose.fromWifBody
  cases b with
  | nil => exact absurd rfl hb
  | cons p s =>
    simp only
    rw [private_find]
    rcases explains_cases (explains_findAs (e := .privUnknownNetwork) (by simp) (.int p.val) "wif_prefix") with
      ⟨e, z, h1, h2, h3, h4⟩ | ⟨n, h1, h2⟩ <;> rw [h1, h2]
    · exact explains_error h3 ⟨p, s, rfl, .inl h4⟩
    refine (C90_private_new (some (decodeInt s)) (.network n) c 0).imp fun x hx => ?_
    rcases hx with hx | hx
    · exact absurd hx (known_network (by simp))
    · refine ⟨p, s, rfl, .inr ?_⟩
      rw [← decodeInt_big]
      exact hx

/-- C90. `PrivateKey.from_wif`. -/
theorem C90_private_wif (H : Hashes) (t : Text) : Explains (PrivateKey.fromWif H t)
    (fun x => Tells x .privInvalidBase58h (aboutString (.unicode t)) ∨ Foreign x ∨
      ∃ b, decodeBase58h H t = .ok b ∧
        (b.length ≠ 33 ∧ b.length ≠ 34 ∧ Tells x .privInvalidWifLength (aboutString (.bytearray b)) ∨
          b.length = 34 ∧ b.getLast? ≠ some 1 ∧ Tells x .privInvalidCompressionByte (aboutString (.unicode t)) ∨
          TellsPayload (b.take 33) x))
    (Verbose.fromWif H t) := by
  unfold Verbose.fromWif
  rcases recast_cases (old := .invalidBase58h) (new := .privInvalidBase58h) (by decide) trivial t (C90_base58 H t) with
    ⟨z, h1, h2, h3⟩ | ⟨e, z, he, h1, h2, h3, h4⟩ | ⟨b, h1, h2⟩ <;> rw [h2]
  · have : PrivateKey.fromWif H t = .error .privInvalidBase58h := by unfold PrivateKey.fromWif; rw [h1]
    rw [this]
    exact explains_tells h3 (.inl h3)
  · have : PrivateKey.fromWif H t = .error e := by
      unfold PrivateKey.fromWif
      rw [h1]
      cases e <;> first | rfl | exact absurd rfl he
    rw [this]
    exact explains_error h3 (.inr (.inl h4))
  unfold PrivateKey.fromWif
  rw [h1]
  simp only
  split
  · next hl =>
    refine (explains_wifBody b false (by rintro rfl; cases hl)).imp fun x hx => .inr (.inr ⟨b, rfl, .inr (.inr ?_)⟩)
    rw [List.take_of_length_le (by omega)]; exact hx
  · next hl =>
    split
    · next hl' =>
      split
      · next hc =>
        have := tells_string (e := .privInvalidCompressionByte) (by decide) (.unicode t)
        exact explains_tells this (.inr (.inr ⟨b, rfl, .inr (.inl ⟨hl', hc, this⟩)⟩))
      · refine (explains_wifBody b.dropLast true (fun h => ?_)).imp fun x hx =>
          .inr (.inr ⟨b, rfl, .inr (.inr ?_)⟩)
        · have := congrArg List.length h
          rw [List.length_dropLast, hl'] at this
          cases this
        · rw [List.dropLast_eq_take, hl'] at hx; exact hx
    · next hl' =>
      have := tells_string (e := .privInvalidWifLength) (by decide) (.bytearray b)
      exact explains_tells this (.inr (.inr ⟨b, rfl, .inl ⟨hl, hl', this⟩⟩))

/-- What goes wrong with the bytes of a secret. -/
def TellsSecret (d : Data) (net : NetValue) (x : Exc) : Prop :=
  d.val.length ≠ 32 ∧ Tells x .privInvalidBinaryLength (aboutString d.value) ∨
  d.val.length = 32 ∧ (Tells x .privUnknownNetwork (aboutValue "name" net) ∨
    Tells x .privInvalidSecret (aboutNumber (beValue d.val)))

/-- C90. `PrivateKey.from_bytes`. -/
theorem C90_private_bytes (d : Data) (net : NetValue) (c : Bool) :
    Explains (PrivateKey.fromBytes d.val net c) (TellsSecret d net) (Verbose.privateFromBytes d net c) := by
  unfold PrivateKey.fromBytes Verbose.privateFromBytes
  split
  · next h =>
    have := tells_string (e := .privInvalidBinaryLength) (by decide) d.value
    exact explains_tells this (.inl ⟨h, this⟩)
  · next h =>
    refine (C90_private_new (some (decodeInt d.val)) net c 0).imp fun x hx => .inr ⟨not_not.1 h, ?_⟩
    rw [← decodeInt_big]
    exact hx

/-- C90. `PrivateKey.from_hex`. -/
theorem C90_private_hex (t : Text) (net : NetValue) (c : Bool) : Explains (PrivateKey.fromHex t net c)
    (fun x => Tells x .privInvalidHex (aboutString (.unicode t)) ∨ Foreign x ∨
      ∃ b, decodeHex t = .ok b ∧ TellsSecret ⟨.str, b⟩ net x)
    (Verbose.privateFromHex t net c) := by
  unfold Verbose.privateFromHex
  rcases recast_cases (old := .invalidHex) (new := .privInvalidHex) (by decide) trivial t (C90_hex t) with
    ⟨z, h1, h2, h3⟩ | ⟨e, z, he, h1, h2, h3, h4⟩ | ⟨b, h1, h2⟩ <;> rw [h2]
  · have : PrivateKey.fromHex t net c = .error .privInvalidHex := by unfold PrivateKey.fromHex; rw [h1]
    rw [this]
    exact explains_tells h3 (.inl h3)
  · have : PrivateKey.fromHex t net c = .error e := by
      unfold PrivateKey.fromHex
      rw [h1]
      cases e <;> first | rfl | exact absurd rfl he
    rw [this]
    exact explains_error h3 (.inr (.inl h4))
  · unfold PrivateKey.fromHex
    rw [h1]
    exact (C90_private_bytes ⟨.str, b⟩ net c).imp fun x hx => .inr (.inr ⟨b, rfl, hx⟩)

/-- C90. The constructor of public keys; the text of the pair depends on the types of its members. -/
theorem C90_public_new (show_ : Int × Int → Text) (p : Int × Int) (net : NetValue) (c : Bool) :
    Explains (PublicKey.new p net c)
      (fun x => Tells x .pubUnknownNetwork (aboutValue "name" net) ∨ Tells x .pubInvalidPair (aboutObject (show_ p)))
      (Verbose.newPublicKey show_ p net c) := by
  unfold PublicKey.new Verbose.newPublicKey
  have hf : PublicKey.findNetwork net = (Network.find net "name").mapError fun _ => .pubUnknownNetwork := by
    unfold PublicKey.findNetwork
    cases Network.find net "name" <;> rfl
  rw [hf]
  rcases explains_cases (explains_findAs (e := .pubUnknownNetwork) (by simp) net "name") with
    ⟨e, z, h1, h2, h3, h4⟩ | ⟨n, h1, h2⟩ <;> rw [h1, h2]
  · exact explains_error h3 (.inl h4)
  simp only
  split
  · exact explains_ok
  · have := tells_object (e := .pubInvalidPair) (by simp) (show_ p)
    exact explains_tells this (.inr this)

/-- What goes wrong with the bytes of a public key. -/
def TellsPublic (show_ : Int × Int → Text) (d : Data) (net : NetValue) (x : Exc) : Prop :=
  Tells x .pubInvalidBinary (aboutString d.value) ∨ Tells x .pubUnknownNetwork (aboutValue "name" net) ∨
  ∃ p, secToPublicPair d = .ok p ∧ Tells x .pubInvalidPair (aboutObject (show_ p))

/-- C90. `PublicKey.from_bytes`. -/
theorem C90_public_bytes (show_ : Int × Int → Text) (d : Data) (net : NetValue) :
    Explains (PublicKey.fromBytes d net) (TellsPublic show_ d net) (Verbose.publicFromBytes show_ d net) := by
  unfold PublicKey.fromBytes Verbose.publicFromBytes
  cases h : secToPublicPair d with
  | error e =>
    simp only
    rcases secToPublicPair_errors h with rfl | rfl | rfl
    all_goals
      have := tells_string (e := .pubInvalidBinary) (by decide) d.value
      exact explains_tells this (.inl this)
  | ok p =>
    refine (C90_public_new show_ p net (isSecCompressed d)).imp fun x hx => .inr ?_
    rcases hx with hx | hx
    · exact .inl hx
    · exact .inr ⟨p, h, hx⟩

/-- C90. `PublicKey.from_hex`. -/
theorem C90_public_hex (show_ : Int × Int → Text) (t : Text) (net : NetValue) : Explains (PublicKey.fromHex t net)
    (fun x => Tells x .pubInvalidHex (aboutString (.unicode t)) ∨ Foreign x ∨
      ∃ b, decodeHex t = .ok b ∧ TellsPublic show_ ⟨.str, b⟩ net x)
    (Verbose.publicFromHex show_ t net) := by
  unfold Verbose.publicFromHex
  rcases recast_cases (old := .invalidHex) (new := .pubInvalidHex) (by decide) trivial t (C90_hex t) with
    ⟨z, h1, h2, h3⟩ | ⟨e, z, he, h1, h2, h3, h4⟩ | ⟨b, h1, h2⟩ <;> rw [h2]
  · have : PublicKey.fromHex t net = .error .pubInvalidHex := by unfold PublicKey.fromHex; rw [h1]
    rw [this]
    exact explains_tells h3 (.inl h3)
  · have : PublicKey.fromHex t net = .error e := by
      unfold PublicKey.fromHex
      rw [h1]
      cases e <;> first | rfl | exact absurd rfl he
    rw [this]
    exact explains_error h3 (.inr (.inl h4))
  · unfold PublicKey.fromHex
    rw [h1]
    exact (C90_public_bytes show_ ⟨.str, b⟩ net).imp fun x hx => .inr (.inr ⟨b, rfl, hx⟩)

/-- C90. The constructor of addresses. -/
theorem C90_address_new (d : Data) (net : NetValue) (type : Text ⊕ AddrType) :
    Explains (Address.new d.val net type.getRight?)
      (fun x => Tells x .addrUnknownNetwork (aboutValue "name" net) ∨
        (∃ t, type = .inl t ∧ Tells x .addrInvalidType (aboutObject t)) ∨
        Tells x .addrInvalidHashLength (aboutString d.value))
      (Verbose.newAddress d net type) := by
  unfold Address.new Verbose.newAddress
  have hc := explains_cases (explains_findAs (e := .addrUnknownNetwork) (by simp) net "name")
  cases hn : Network.find net "name" with
  | error e' =>
    rw [hn] at hc
    rcases hc with ⟨e, z, h1, h2, h3, h4⟩ | ⟨n, h1, h2⟩ <;> cases h1
    rw [h2]
    exact explains_error h3 (.inl h4)
  | ok n =>
  rw [hn] at hc
  rcases hc with ⟨e, z, h1, h2, h3, h4⟩ | ⟨n, h1, h2⟩ <;> cases h1
  rw [h2]
  simp only
  cases type with
  | inl t =>
    have := tells_object (e := .addrInvalidType) (by simp) t
    exact explains_tells this (.inr (.inl ⟨t, rfl, this⟩))
  | inr type =>
    simp only [Sum.getRight?_inr]
    split
    · have := tells_string (e := .addrInvalidHashLength) (by decide) d.value
      exact explains_tells this (.inr (.inr this))
    · exact explains_ok

/-- What goes wrong with the bytes of an address. -/
def TellsAddress (d : Data) (x : Exc) : Prop :=
  d.val.length ≠ 21 ∧ Tells x .addrInvalidBinaryLength (aboutString d.value) ∨
  ∃ v r, d.val = v :: r ∧ r.length = 20 ∧ Tells x .addrInvalidVersion (aboutNumber v.val)

/-- C90. `Address.from_bytes`. -/
theorem C90_address_bytes (d : Data) :
    Explains (Address.fromBytes d.val) (TellsAddress d) (Verbose.addressFromBytes d) := by
  unfold Address.fromBytes Verbose.addressFromBytes
  split
  · next h =>
    have := tells_string (e := .addrInvalidBinaryLength) (by decide) d.value
    exact explains_tells this (.inl ⟨h, this⟩)
  · next h =>
    obtain ⟨k, b⟩ := d
    cases b with
    | nil => exact absurd (by decide : ([] : Bytes).length ≠ 21) h
    | cons v r =>
      have hr : r.length = 20 := by simpa using h
      have hc : Explains (Address.classifyBytes (v :: r)) (fun x => Tells x .addrInvalidVersion (aboutNumber v.val))
          (Verbose.classifyBytes (v :: r)) := by
        unfold Address.classifyBytes Verbose.classifyBytes
        simp only
        cases Network.find? (.int v.val) "pubkeyhash" with
        | some n => exact explains_ok
        | none =>
          cases Network.find? (.int v.val) "scripthash" with
          | some n => exact explains_ok
          | none =>
            have := tells_number (e := .addrInvalidVersion) (by decide) v.val
            exact explains_tells this this
      simp only
      rcases explains_cases hc with ⟨e, z, h1, h2, h3, h4⟩ | ⟨⟨n, ty⟩, h1, h2⟩ <;> rw [h1, h2]
      · exact explains_error h3 (.inr ⟨v, r, rfl, hr, h4⟩)
      · have h3 : Address.new r (.network n) (some ty) = .ok ⟨r, n, ty⟩ := if_neg (not_not.2 hr)
        have h4 : Verbose.newAddress ⟨k, r⟩ (.network n) (.inr ty) = .ok ⟨r, n, ty⟩ := if_neg (not_not.2 hr)
        simp only [List.drop_one, List.tail_cons, h3, h4]
        exact explains_ok

/-- C90. `Address.from_string`. -/
theorem C90_address_text (H : Hashes) (t : Text) : Explains (Address.fromString H t)
    (fun x => Tells x .addrInvalidBase58h (aboutString (.unicode t)) ∨ Foreign x ∨
      ∃ b, decodeBase58h H t = .ok b ∧ TellsAddress ⟨.str, b⟩ x)
    (Verbose.addressFromString H t) := by
  unfold Verbose.addressFromString
  rcases recast_cases (old := .invalidBase58h) (new := .addrInvalidBase58h) (by decide) trivial t (C90_base58 H t) with
    ⟨z, h1, h2, h3⟩ | ⟨e, z, he, h1, h2, h3, h4⟩ | ⟨b, h1, h2⟩ <;> rw [h2]
  · have : Address.fromString H t = .error .addrInvalidBase58h := by unfold Address.fromString; rw [h1]
    rw [this]
    exact explains_tells h3 (.inl h3)
  · have : Address.fromString H t = .error e := by
      unfold Address.fromString
      rw [h1]
      cases e <;> first | rfl | exact absurd rfl he
    rw [this]
    exact explains_error h3 (.inr (.inl h4))
  · unfold Address.fromString
    rw [h1]
    exact (C90_address_bytes ⟨.str, b⟩).imp fun x hx => .inr (.inr ⟨b, rfl, hx⟩)

/-- C90. `Address.from_hex`. -/
theorem C90_address_hex (t : Text) : Explains (Address.fromHex t)
    (fun x => Tells x .addrInvalidHex (aboutString (.unicode t)) ∨ Foreign x ∨
      ∃ b, decodeHex t = .ok b ∧ TellsAddress ⟨.str, b⟩ x)
    (Verbose.addressFromHex t) := by
  unfold Verbose.addressFromHex
  rcases recast_cases (old := .invalidHex) (new := .addrInvalidHex) (by decide) trivial t (C90_hex t) with
    ⟨z, h1, h2, h3⟩ | ⟨e, z, he, h1, h2, h3, h4⟩ | ⟨b, h1, h2⟩ <;> rw [h2]
  · have : Address.fromHex t = .error .addrInvalidHex := by unfold Address.fromHex; rw [h1]
    rw [this]
    exact explains_tells h3 (.inl h3)
  · have : Address.fromHex t = .error e := by
      unfold Address.fromHex
      rw [h1]
      cases e <;> first | rfl | exact absurd rfl he
    rw [this]
    exact explains_error h3 (.inr (.inl h4))
  · unfold Address.fromHex
    rw [h1]
    exact (C90_address_bytes ⟨.str, b⟩).imp fun x hx => .inr (.inr ⟨b, rfl, hx⟩)

/-- C90. `decode_script_number`. -/
theorem C90_script_number (d : Data) (m : Bool) (size : Nat) : Explains (decodeScriptNumber d m size)
    (fun x => Tells x .invalidScriptNumber (aboutString d.value) ∨ Tells x .invalidMinimalScriptNumber (aboutString d.value) ∨
      Foreign x)
    (Verbose.decodeScriptNumber d m size) := by
  have h : ∀ e, decodeScriptNumber d m size = .error e →
      e = .invalidScriptNumber ∨ e = .invalidMinimalScriptNumber ∨ e = .typeError := by
    unfold decodeScriptNumber
    intro e
    simp only
    repeat' split
    all_goals simp +contextual
  unfold Verbose.decodeScriptNumber
  cases hd : decodeScriptNumber d m size with
  | ok n => exact explains_ok
  | error e =>
    rcases h e hd with rfl | rfl | rfl
    · have := tells_string (e := .invalidScriptNumber) (by decide) d.value
      exact explains_tells this (.inl this)
    · have := tells_string (e := .invalidMinimalScriptNumber) (by decide) d.value
      exact explains_tells this (.inr (.inl this))
    · exact explains_error rfl (.inr (.inr ⟨id, rfl⟩))

/-- C90. `Buffer.read`: of `requested` bytes `remaining` are there. -/
theorem C90_read (n : Nat) (b : Bytes) :
    Explains ((Buffer.read n b).1.map fun x => (x, (Buffer.read n b).2))
      (fun x => b.length < n ∧ Tells x (.insufficientData b.length n) (aboutRead b.length n)) (Verbose.read n b) := by
  unfold Verbose.read Buffer.read
  split
  · next h =>
    have := tells_insufficient b.length n
    simp only [h]
    exact explains_tells this ⟨trivial, this⟩
  · next h =>
    simp only [h]
    exact explains_ok

/-! ## Opcodes and scripts -/

/-- C90. `Opcode.__init__`. -/
theorem C90_opcode_make (n : Int) :
    Explains (Opcode.make n) (fun x => Tells x .opUnknownNumber (aboutNumber n)) (Verbose.makeOpcode n) := by
  unfold Opcode.make Verbose.makeOpcode
  split
  · have := tells_number (e := .opUnknownNumber) (by decide) n
    exact explains_tells this this
  · exact explains_ok

/-- C90. `Opcode.from_name`. -/
theorem C90_opcode_from_name (t : Text) :
    Explains (Opcode.fromName t) (fun x => Tells x .opUnknownName (aboutString (.unicode t))) (Verbose.fromName t) := by
  unfold Opcode.fromName Verbose.fromName
  have := tells_string (e := .opUnknownName) (by decide) (.unicode t)
  split
  · exact explains_tells this this
  · cases opcodeTable.find? fun e => e.1.toList = t with
    | none => exact explains_tells this this
    | some e => exact explains_ok

/-- What is wrong with an opcode that has no such operation: a nameless one cannot be mentioned. -/
def TellsOpcode (o : Opcode) (e : Err) (a : About) (x : Exc) : Prop :=
  Named o.number ∧ Tells x e a ∨ ¬ Named o.number ∧ x = .runtime .keyError

theorem mention_named {o : Opcode} (e : Err) (h : Named o.number) : o.mention e = e := by
  obtain ⟨b⟩ := o
  obtain ⟨t, h, -⟩ := name_named b h
  unfold Opcode.mention
  rw [h]

theorem mention_nameless {o : Opcode} (e : Err) (h : ¬ Named o.number) : o.mention e = .keyError := by
  obtain ⟨b⟩ := o
  unfold Opcode.mention
  rw [name_unnamed b h]

theorem explains_wrongType {α : Type} (o : Opcode) : Explains (α := α) (.error (o.mention .opWrongType))
    (TellsOpcode o .opWrongType (aboutName o)) (.error (.wrongType o)) := by
  by_cases hn : Named o.number
  · rw [mention_named _ hn]
    exact explains_tells (tells_wrongType hn) (.inl ⟨hn, tells_wrongType hn⟩)
  · rw [mention_nameless _ hn, wrongType_nameless hn]
    exact explains_error rfl (.inr ⟨hn, rfl⟩)

/-- C90. `number_value` and `data_length_nbytes`. -/
theorem C90_opcode_type (o : Opcode) :
    Explains o.numberValue (TellsOpcode o .opWrongType (aboutName o)) (Verbose.numberValue o) ∧
    Explains o.dataLengthNbytes (TellsOpcode o .opWrongType (aboutName o)) (Verbose.dataLengthNbytes o) := by
  constructor
  · unfold Opcode.numberValue Verbose.numberValue
    split
    · exact explains_wrongType o
    · exact explains_ok
  · unfold Opcode.dataLengthNbytes Verbose.dataLengthNbytes
    split
    · exact explains_ok
    split
    · exact explains_ok
    split
    · exact explains_ok
    · exact explains_wrongType o

/-- C90. `const_push_for`, `var_push_for` and `push_for`. -/
theorem C90_opcode_push (n : Int) :
    Explains (Opcode.constPushFor n) (fun x => Tells x .opInvalidConstPushLength (aboutNumber n)) (Verbose.constPushFor n) ∧
    Explains (Opcode.varPushFor n) (fun x => Tells x .opInvalidPushLength (aboutNumber n)) (Verbose.varPushFor n) ∧
    Explains (Opcode.pushFor n) (fun x => n < 1 ∧ Tells x .opInvalidConstPushLength (aboutNumber n) ∨
      2 ^ 32 ≤ n ∧ Tells x .opInvalidPushLength (aboutNumber n)) (Verbose.pushFor n) := by
  have h1 : Explains (Opcode.constPushFor n) (fun x => ¬ (1 ≤ n ∧ n ≤ 75) ∧ Tells x .opInvalidConstPushLength (aboutNumber n))
      (Verbose.constPushFor n) := by
    unfold Opcode.constPushFor Verbose.constPushFor
    split
    · next h =>
      have := tells_number (e := .opInvalidConstPushLength) (by decide) n
      exact explains_tells this ⟨h, this⟩
    · next h =>
      unfold Opcode.make Verbose.makeOpcode
      rw [if_neg (by omega), if_neg (by omega)]
      exact explains_ok
  have h2 : Explains (Opcode.varPushFor n) (fun x => (n < 1 ∨ 2 ^ 32 ≤ n) ∧ Tells x .opInvalidPushLength (aboutNumber n))
      (Verbose.varPushFor n) := by
    unfold Opcode.varPushFor Verbose.varPushFor
    have := tells_number (e := .opInvalidPushLength) (by decide) n
    split
    · next h => exact explains_tells this ⟨.inl h, this⟩
    · next h =>
      cases hf : [Opcode.num 76, Opcode.num 77, Opcode.num 78].find? fun o => n ≤ o.dataLengthMax with
      | some o => exact explains_ok
      | none =>
        refine explains_tells this ⟨.inr ?_, this⟩
        have := List.find?_eq_none.1 hf (.num 78) (by simp)
        have h78 : (Opcode.num 78).dataLengthMax = 2 ^ 32 - 1 := by decide
        simp only [h78, decide_eq_true_eq] at this
        omega
  refine ⟨h1.imp fun _ => And.right, h2.imp fun _ => And.right, ?_⟩
  unfold Opcode.pushFor Verbose.pushFor
  split
  · exact h1.imp fun x hx => .inl ⟨by omega, hx.2⟩
  · exact h2.imp fun x hx => .inr ⟨by omega, hx.2⟩

theorem named_push (o : Opcode) (h : o.isPush = true) : Named o.number := by
  obtain ⟨b⟩ := o
  have : ∀ b : Byte, (Opcode.mk b).isPush = true → Named b := by decide +kernel
  exact this b h

/-- C90. The constructor of instructions; without the data of a push it is an exception of the runtime. -/
theorem C90_instruction (o : Opcode) (d : Option Data) : Explains (Instruction.make o d)
    (fun x => (∃ b, d = some b ∧ o.isPush = true ∧
          Tells x .insInvalidDataLength (aboutPush o b.val.length o.dataLengthMax)) ∨
      d ≠ none ∧ o.isPush = false ∧ TellsOpcode o .insUnexpectedData (aboutOpcode o) x ∨ d = none ∧ o.isPush = true ∧ x = .runtime .typeError)
    (Verbose.makeInstruction o d) := by
  unfold Instruction.make Verbose.makeInstruction
  by_cases hp : o.isPush = true
  · rw [if_pos hp, if_pos hp]
    cases d with
    | none => exact explains_error rfl (.inr (.inr ⟨rfl, hp, rfl⟩))
    | some b =>
      simp only
      split
      · have := tells_dataLength (named_push o hp) b.val.length o.dataLengthMax
        exact explains_tells this (.inl ⟨b, rfl, hp, this⟩)
      · exact explains_ok
  · rw [if_neg hp, if_neg hp]
    split
    · next hd =>
      have hp : o.isPush = false := by simpa using hp
      by_cases hn : Named o.number
      · rw [mention_named _ hn]
        exact explains_tells (tells_opcode hn) (.inr (.inl ⟨hd, hp, .inl ⟨hn, tells_opcode hn⟩⟩))
      · rw [mention_nameless _ hn, opcode_nameless hn]
        exact explains_error rfl (.inr (.inl ⟨hd, hp, .inr ⟨hn, rfl⟩⟩))
    · exact explains_ok

/-- What goes wrong with the tokens of a script. -/
def TellsTokens (ts : List Text) (x : Exc) : Prop :=
  ∃ w ∈ ts,
    Tells x .scrUnknownOpcodeName (aboutString (.unicode w)) ∨
    Tells x .scrMissingPushArguments (aboutString (.unicode w)) ∨
    Tells x .scrInvalidPushSize (aboutString (.unicode w)) ∨
    Tells x .scrInvalidPushData (aboutString (.unicode w)) ∨
    ((∃ n, Numeral w n ∧ Tells x .opInvalidConstPushLength (aboutNumber n)) ∨ ¬ Ascii w ∧ Foreign x) ∨
    (∃ h, w = "0x".toList ++ h ∧ (Tells x .invalidHex (aboutString (.unicode h)) ∨ Foreign x ∨
      ∃ b, decodeHex h = .ok b ∧ (Tells x .scrInvalidPushDataLength (aboutNumber b.length) ∨
        ∃ o : Opcode, o.isPush = true ∧ Tells x .insInvalidDataLength (aboutPush o b.length o.dataLengthMax))))

theorem explains_int {w : Text} (hw : isDigitText w = true) : Explains (intOfDigits w)
    (fun x => ¬ Ascii w ∧ Foreign x) (Verbose.plain (intOfDigits w)) := by
  cases hi : intOfDigits w with
  | ok n => exact explains_ok
  | error e =>
    obtain ⟨he, c, hc, h⟩ := intOfDigits_ascii_only hw hi
    refine ⟨rfl, fun _ hx => ?_⟩
    cases hx
    refine ⟨fun ha => absurd (ha c hc) (by omega), ?_, rfl⟩
    rcases he with rfl | rfl <;> exact id

theorem explains_getOpcode (w : Text) : Explains (Script.getOpcode w)
    (fun x => Tells x .scrUnknownOpcodeName (aboutString (.unicode w)) ∨
      (∃ n, Numeral w n ∧ Tells x .opInvalidConstPushLength (aboutNumber n)) ∨ ¬ Ascii w ∧ Foreign x)
    (Verbose.getOpcode w) := by
  unfold Script.getOpcode Verbose.getOpcode
  rcases explains_cases (C90_opcode_from_name w) with ⟨e, z, h1, h2, -, -⟩ | ⟨o, h1, h2⟩ <;> rw [h1, h2]
  · simp only
    split
    · next hd =>
      rcases explains_cases (explains_int hd) with ⟨e, z, h1, h2, h3, h4⟩ | ⟨n, h1, h2⟩ <;> rw [h2, h1]
      · exact explains_error h3 (.inr (.inr h4))
      · exact (C90_opcode_push n).1.imp fun x hx => .inr (.inl ⟨n, (numeral_iff w n).1 ⟨hd, h1⟩, hx⟩)
    · have := tells_string (e := .scrUnknownOpcodeName) (by decide) (.unicode w)
      exact explains_tells this (.inl this)
  · exact explains_ok

theorem explains_pushArgument (w : Text) : Explains (Script.pushArgument w)
    (fun x => Tells x .scrInvalidPushData (aboutString (.unicode w)) ∨
      ∃ h, w = "0x".toList ++ h ∧ (Tells x .invalidHex (aboutString (.unicode h)) ∨ Foreign x))
    (Verbose.pushArgument w) := by
  unfold Script.pushArgument Verbose.pushArgument
  split
  · have := tells_string (e := .scrInvalidPushData) (by decide) (.unicode w)
    exact explains_tells this (.inl this)
  · next h =>
    rw [not_not, List.isPrefixOf_iff_prefix] at h
    obtain ⟨h', rfl⟩ := h
    exact (C90_hex _).imp fun x hx => .inr ⟨h', rfl, hx⟩

theorem pushArgument_ok {w : Text} {b : Bytes} (h : Script.pushArgument w = .ok b) :
    ∃ h, w = "0x".toList ++ h ∧ decodeHex h = .ok b := by
  unfold Script.pushArgument at h
  split at h
  · cases h
  · next hp =>
    rw [not_not, List.isPrefixOf_iff_prefix] at hp
    obtain ⟨h', rfl⟩ := hp
    exact ⟨h', rfl, h⟩

theorem tellsTokens_mono {l l' : List Text} (h : l ⊆ l') {x : Exc} : TellsTokens l x → TellsTokens l' x :=
  fun ⟨w, hw, hx⟩ => ⟨w, h hw, hx⟩

theorem tells_argument {ts : List Text} {w : Text} (hw : w ∈ ts) {x : Exc}
    (h : Tells x .scrInvalidPushData (aboutString (.unicode w)) ∨
      ∃ h, w = "0x".toList ++ h ∧ (Tells x .invalidHex (aboutString (.unicode h)) ∨ Foreign x)) : TellsTokens ts x := by
  refine ⟨w, hw, ?_⟩
  rcases h with h | ⟨h', e, h | h⟩
  · exact .inr (.inr (.inr (.inl h)))
  · exact .inr (.inr (.inr (.inr (.inr ⟨h', e, .inl h⟩))))
  · exact .inr (.inr (.inr (.inr (.inr ⟨h', e, .inr (.inl h)⟩))))

theorem explains_make_push {ts : List Text} {w : Text} (hw : w ∈ ts) {b : Bytes} (hb : Script.pushArgument w = .ok b)
    {o : Opcode} (ho : o.isPush = true) :
    Explains (Instruction.make o (some ⟨.str, b⟩)) (TellsTokens ts) (Verbose.makeInstruction o (some ⟨.str, b⟩)) := by
  refine (C90_instruction o _).imp fun x hx => ?_
  obtain ⟨h, e, hd⟩ := pushArgument_ok hb
  rcases hx with ⟨b', h1, h2, h3⟩ | hx | hx
  · cases h1
    exact ⟨w, hw, .inr (.inr (.inr (.inr (.inr ⟨h, e, .inr (.inr ⟨b, hd, .inr ⟨o, ho, h3⟩⟩)⟩))))⟩
  · rw [ho] at hx; exact absurd hx.2.1 (by decide)
  · exact absurd hx.1 (by simp)

theorem explains_tokens : ∀ (n : Nat) (ts : List Text), ts.length ≤ n →
    Explains (Script.readTokens ts) (TellsTokens ts) (Verbose.readTokens ts)
  | _, [], _ => by
    unfold Script.readTokens Verbose.readTokens
    exact explains_ok
  | 0, _ :: _, h => by simp at h
  | n + 1, w :: ts, hl => by
    have hl : ts.length ≤ n := by simpa using hl
    unfold Script.readTokens Verbose.readTokens
    rcases explains_cases (explains_getOpcode w) with ⟨e, z, h1, h2, h3, h4⟩ | ⟨o, h1, h2⟩ <;> rw [h1, h2]
    · refine explains_error h3 ⟨w, by simp, ?_⟩
      rcases h4 with h4 | h4
      · exact .inl h4
      · exact .inr (.inr (.inr (.inr (.inl h4))))
    simp only
    have hmiss := tells_string (e := .scrMissingPushArguments) (by decide) (.unicode w)
    by_cases hc : o.isConstPush = true
    · have hp : o.isPush = true := by unfold Opcode.isPush; rw [hc]; rfl
      rw [if_pos hc, if_pos hc]
      cases ts with
      | nil => exact explains_tells hmiss ⟨w, by simp, .inr (.inl hmiss)⟩
      | cons a ts =>
        simp only
        rcases explains_cases (explains_pushArgument a) with ⟨e, z, h1, h2, h3, h4⟩ | ⟨b, h1, h2⟩ <;> rw [h1, h2]
        · exact explains_error h3 (tells_argument (by simp) h4)
        simp only
        rcases explains_cases (explains_make_push (ts := w :: a :: ts) (w := a) (by simp) h1 hp) with
          ⟨e, z, h1, h2, h3, h4⟩ | ⟨i, h1, h2⟩ <;> rw [h1, h2]
        · exact explains_error h3 h4
        · exact explains_map ((explains_tokens n ts (by simp at hl; omega)).imp fun x =>
            tellsTokens_mono fun y hy => by simp [hy]) _
    rw [if_neg hc, if_neg hc]
    by_cases hv : o.isVarPush = true
    · have hp : o.isPush = true := by unfold Opcode.isPush; rw [hv]; simp
      rw [if_pos hv, if_pos hv]
      match ts, hl with
      | [], _ => exact explains_tells hmiss ⟨w, by simp, .inr (.inl hmiss)⟩
      | [_], _ => exact explains_tells hmiss ⟨w, by simp, .inr (.inl hmiss)⟩
      | s :: a :: ts, hl =>
        simp only
        by_cases hs : isDigitText s = true
        · rw [if_neg (not_not.2 hs), if_neg (not_not.2 hs)]
          rcases explains_cases (explains_pushArgument a) with ⟨e, z, h1, h2, h3, h4⟩ | ⟨b, h1, h2⟩ <;> rw [h1, h2]
          · exact explains_error h3 (tells_argument (by simp) h4)
          simp only
          rcases explains_cases (explains_int hs) with ⟨e, z, g1, g2, h3, h4⟩ | ⟨k, g1, g2⟩ <;> rw [g2, g1]
          · exact explains_error h3 ⟨s, by simp, .inr (.inr (.inr (.inr (.inl (.inr h4)))))⟩
          simp only
          split
          · have ht := tells_number (e := .scrInvalidPushDataLength) (by decide) b.length
            obtain ⟨h, e, hd⟩ := pushArgument_ok h1
            exact explains_tells ht ⟨a, by simp, .inr (.inr (.inr (.inr (.inr ⟨h, e, .inr (.inr ⟨b, hd, .inl ht⟩)⟩))))⟩
          rcases explains_cases (explains_make_push (ts := w :: s :: a :: ts) (w := a) (by simp) h1 hp) with
            ⟨e, z, h1, h2, h3, h4⟩ | ⟨i, h1, h2⟩ <;> rw [h1, h2]
          · exact explains_error h3 h4
          · exact explains_map ((explains_tokens n ts (by simp at hl; omega)).imp fun x =>
              tellsTokens_mono fun y hy => by simp [hy]) _
        · rw [if_pos hs, if_pos hs]
          have ht := tells_string (e := .scrInvalidPushSize) (by decide) (.unicode s)
          exact explains_tells ht ⟨s, by simp, .inr (.inr (.inl ht))⟩
    rw [if_neg hv, if_neg hv]
    have hp : o.isPush = false := by
      unfold Opcode.isPush
      simp only [Bool.not_eq_true] at hc hv
      rw [hc, hv]; rfl
    have h1 : Instruction.make o = .ok ⟨o, none⟩ := by
      unfold Instruction.make; rw [if_neg (by rw [hp]; decide)]; rfl
    have h2 : Verbose.makeInstruction o = .ok ⟨o, none⟩ := by
      unfold Verbose.makeInstruction; rw [if_neg (by rw [hp]; decide)]; rfl
    rw [h1, h2]
    exact explains_map ((explains_tokens n ts hl).imp fun x => tellsTokens_mono fun y hy => by simp [hy]) _

/-- C90. `Script.from_string`: the message shows the token that is wrong. -/
theorem C90_script (t : Text) : Explains (Script.fromText t) (fun x => TellsTokens (splitSpace t) x ∨ Foreign x)
    (Verbose.scriptFromText t) := by
  unfold Script.fromText Verbose.scriptFromText
  rcases explains_cases (explains_tokens _ (splitSpace t) (le_refl _)) with ⟨e, z, h1, h2, h3, h4⟩ | ⟨is, h1, h2⟩ <;>
    rw [h1, h2]
  · exact explains_error h3 (.inl h4)
  · show Explains (Script.create is) _ (Verbose.plain (Script.create is))
    refine explains_plain (fun e he => ?_) fun x => .inr
    unfold Script.create at he
    rcases classify_spec is with ⟨-, h⟩ | ⟨-, c, h, -⟩ <;> rw [h] at he <;> cases he
    exact id

/-! ## Transactions -/

theorem explains_all {α : Type} {e : Err} (he : e ∈ [Err.pubInvalidPair, .addrInvalidType, .txNotAnInput, .txNotAnOutput, .insUnexpectedData])
    (l : List (Text ⊕ α)) : (∃ l', (l.map Sum.getRight?).mapM id = some l' ∧ Verbose.enforceAll e l = .ok l') ∨
    (∃ z t, (l.map Sum.getRight?).mapM id = none ∧ Verbose.enforceAll e l = .error z ∧ Tells z e (aboutObject t) ∧
      ∃ a b, l = a ++ .inl t :: b ∧ ∀ x ∈ a, x.isRight = true) := by
  induction l with
  | nil => exact .inl ⟨[], rfl, rfl⟩
  | cons x l ih =>
    cases x with
    | inl t => exact .inr ⟨_, t, rfl, rfl, tells_object he t, [], l, rfl, by simp⟩
    | inr x =>
      rcases ih with ⟨l', h1, h2⟩ | ⟨z, t, h1, h2, h3, a, b, h4, h5⟩
      · refine .inl ⟨x :: l', ?_, ?_⟩
        · rw [List.map_cons, List.mapM_cons, h1]; rfl
        · unfold Verbose.enforceAll; rw [h2]; rfl
      · refine .inr ⟨z, t, ?_, ?_, h3, .inr x :: a, b, by rw [h4]; rfl, ?_⟩
        · rw [List.map_cons, List.mapM_cons, h1]; rfl
        · unfold Verbose.enforceAll; rw [h2]; rfl
        · simpa using h5

/-- C90. The constructor of transactions: the message shows the first object that is no Input, or no Output.  That it
takes outputs for inputs see `C90_output_refuted`. -/
theorem C90_transaction (is : List (Text ⊕ Input)) (os : List (Text ⊕ Output)) (l v : Int) :
    Explains (Transaction.new (is.map Sum.getRight?) (os.map Sum.getRight?) l v)
      (fun x => is = [] ∧ Tells x .txNoInputs aboutNothing ∨ os = [] ∧ Tells x .txNoOutputs aboutNothing ∨
        (∃ t a b, is = a ++ .inl t :: b ∧ (∀ i ∈ a, i.isRight = true) ∧ Tells x .txNotAnInput (aboutObject t)) ∨
        (∃ t a b, os = a ++ .inl t :: b ∧ (∀ o ∈ a, o.isRight = true) ∧ Tells x .txNotAnOutput (aboutObject t)) ∨
        Tells x .txInvalidLockTime (aboutNumber l))
      (Verbose.newTransaction is os l v) := by
  unfold Transaction.new Verbose.newTransaction
  rw [List.length_map, List.length_map]
  have ti := tells_nothing (e := .txNoInputs) (by simp)
  have tt := tells_nothing (e := .txNoOutputs) (by simp)
  split
  · next h => exact explains_tells ti (.inl ⟨List.length_eq_zero_iff.1 h, ti⟩)
  rcases explains_all (e := .txNotAnInput) (by simp) is with ⟨is', h1, h2⟩ | ⟨z, t, h1, h2, h3, a, b, h4, h5⟩ <;>
    rw [h1, h2] <;> simp only
  · split
    · next h => exact explains_tells tt (.inr (.inl ⟨List.length_eq_zero_iff.1 h, tt⟩))
    rcases explains_all (e := .txNotAnOutput) (by simp) os with ⟨os', h1, h2⟩ | ⟨z, t, h1, h2, h3, a, b, h4, h5⟩ <;>
      rw [h1, h2] <;> simp only
    · split
      · have := tells_number (e := .txInvalidLockTime) (by decide) l
        exact explains_tells this (.inr (.inr (.inr (.inr this))))
      · exact explains_ok
    · exact explains_tells h3 (.inr (.inr (.inr (.inl ⟨t, a, b, h4, h5, h3⟩))))
  · exact explains_tells h3 (.inr (.inr (.inl ⟨t, a, b, h4, h5, h3⟩)))

/-- C90. `AddressInput.sign` with a number of keys other than 1, and `Input.sign`. -/
theorem C90_sign (signer : Signer) (i : Input) (ks : List PrivateKey) (p : Bytes) (s : Int) :
    Explains (i.signAddress signer ks p s)
      (fun x => ks.length ≠ 1 → Tells x .inInvalidSignatureCount (aboutCount 1 ks.length))
      (Verbose.signAddress signer i ks p s) ∧
    (i.cls = .generic → Explains (i.sign signer ks p s) (fun x => Tells x .inUnknownSignatureMethod aboutNothing)
      Verbose.signGeneric) := by
  have hk : ks.length ≠ 1 → i.signAddress signer ks p s = .error .inInvalidSignatureCount := by
    intro h
    unfold Input.signAddress
    match ks, h with
    | [], _ => rfl
    | [_], h => exact absurd rfl h
    | _ :: _ :: _, _ => rfl
  constructor
  · unfold Verbose.signAddress
    split
    · next h =>
      have ht := tells_count 1 ks.length
      rw [hk h]
      exact explains_tells ht fun _ => ht
    · next h =>
      cases i.signAddress signer ks p s with
      | ok a => exact explains_ok
      | error e => exact explains_error rfl fun h' => absurd h' h
  · intro hi
    unfold Input.sign Verbose.signGeneric
    rw [hi]
    have := tells_nothing (e := .inUnknownSignatureMethod) (by simp)
    exact explains_tells this this

/-- C90. `DataOutput.create`: the message says how long the data is, 0 being too short for a push. -/
theorem C90_data (d : Data) : Explains (DataOutput.create d)
    (fun x => 80 < d.val.length ∧ Tells x .outTooMuchData (aboutNumber d.val.length) ∨
      d.val = [] ∧ Tells x .opInvalidConstPushLength (aboutNumber 0) ∨ d.kind = .bytearray ∧ Foreign x)
    (Verbose.dataOutput d) := by
  unfold DataOutput.create Verbose.dataOutput
  split
  · next h =>
    have := tells_number (e := .outTooMuchData) (by decide) d.val.length
    exact explains_tells this (.inl ⟨h, this⟩)
  · next h =>
    have h1 : Instruction.make (.num 106) = .ok ⟨.num 106, none⟩ := by decide +kernel
    have h2 : Verbose.makeInstruction (.num 106) = .ok ⟨.num 106, none⟩ := by decide +kernel
    have hp : Explains (Instruction.pushFor d) (fun x => d.val = [] ∧ Tells x .opInvalidConstPushLength (aboutNumber 0))
        (Verbose.pushInstruction d) := by
      by_cases hd : d.val = []
      · unfold Instruction.pushFor Verbose.pushInstruction
        have hl : (d.val.length : Int) = 0 := by rw [hd]; rfl
        rcases explains_cases (C90_opcode_push d.val.length).2.2 with ⟨e, z, h1, h2, h3, h4⟩ | ⟨o, h1, h2⟩
        · rw [h1, h2]
          rcases h4 with ⟨-, h4⟩ | ⟨h4, -⟩
          · rw [hl] at h4
            exact explains_error h3 ⟨hd, h4⟩
          · omega
        · rw [(C26_rejects _).1 (by omega)] at h1
          cases h1
      · obtain ⟨o, h1, h2⟩ := C27_push_for d (List.length_pos_iff.2 hd) (by omega)
        rw [h2]
        unfold Verbose.pushInstruction
        rcases explains_cases (C90_opcode_push d.val.length).2.2 with ⟨e, z, h3, -, -, -⟩ | ⟨o', h3, h4⟩
        · rw [h1] at h3; cases h3
        · rw [h1] at h3
          cases h3
          rw [h4]
          unfold Instruction.pushFor at h2
          rw [h1] at h2
          change Instruction.make o (some d) = _ at h2
          rcases explains_cases (C90_instruction o (some d)) with ⟨e, z, h5, -, -, -⟩ | ⟨i, h5, h6⟩
          · rw [h2] at h5; cases h5
          · rw [h2] at h5
            cases h5
            simp only [h6]
            exact explains_ok
    unfold OpReturnOut.create ofSchematic
    rw [h2]
    simp only [toInstructions, SchemItem.instruction, h1]
    obtain ⟨k, b⟩ := d
    cases k with
    | bytearray => exact explains_error rfl (.inr (.inr ⟨rfl, id, rfl⟩))
    | str =>
      have hi : SchemItem.instruction (.bytes ⟨.str, b⟩) = Instruction.pushFor ⟨.str, b⟩ := by
        unfold SchemItem.instruction Instruction.pushFor
        simp only
        cases Opcode.pushFor b.length <;> rfl
      rcases explains_cases hp with ⟨e, z, h1, h2, h3, h4⟩ | ⟨j, h1, h2⟩
      · rw [← hi] at h1
        unfold SchemItem.instruction at h1
        simp only at h1 ⊢
        rw [h1, h2]
        exact explains_error h3 (.inr (.inl h4))
      · rw [← hi] at h1
        unfold SchemItem.instruction at h1
        simp only at h1 ⊢
        rw [h1, h2]
        exact explains_ok

/-! ## All messages -/

/-- C90. The literal of a value is what `repr` gives, and nothing else. -/
theorem C90_literal (t : Text) (v : StrValue) : IsLiteral t v ↔ t = v.repr := literal_iff t v

/-- The literals of a string with both quotes, a backslash and a character that cannot be printed, and of a text. -/
example : IsLiteral "'a\\'\"\\\\\\x7f\\n'".toList (.str [97, 39, 34, 92, 127, 10]) ∧
    IsLiteral "u\"it's \\u20ac\"".toList (.unicode "it's €".toList) := by
  simp only [C90_literal]
  decide +kernel

/-- C90. Two messages of the same class about a byte string or a text are different if the values are: a value can be read
from the message. -/
theorem C90_string_injective {e : Err} (he : e ∈ stringErrors) {x y : Exc} {v w : StrValue}
    (hx : Tells x e (aboutString v)) (hy : Tells y e (aboutString w)) (h : x.message = y.message) : v = w := by
  have hs : ∃ s ps, sentence e = .say s :: .field "string" :: ps := by
    simp only [stringErrors, List.mem_cons, List.not_mem_nil, or_false] at he
    repeat' rcases he with rfl | he
    all_goals first | exact ⟨_, _, rfl⟩ | (subst he; exact ⟨_, _, rfl⟩)
  obtain ⟨s, ps, hs⟩ := hs
  obtain ⟨-, m, hm, hx⟩ := hx
  obtain ⟨-, m', hm', hy⟩ := hy
  rw [hm, hm'] at h
  cases h
  rw [hs] at hx hy
  obtain ⟨a, ea, l, b, hl, rfl, -⟩ := hx
  obtain ⟨c, ec, l', d, hl', rfl, -⟩ := hy
  have e := List.append_cancel_left (ea.symm.trans ec)
  have hn : "string" ≠ "length" := by decide
  exact (literal_unique (hl.elim And.right fun h => absurd h.1 hn) (hl'.elim And.right fun h => absurd h.1 hn) e).1

/-- It is not a digit that comes first. -/
def NoDigit (t : Text) : Prop := ∀ c r, t = c :: r → ¬ ('0'.toNat ≤ c.toNat ∧ c.toNat ≤ '9'.toNat)

theorem digits_unique {t t' s s' : Text} (h : Digits t) (h' : Digits t') (e : t ++ s = t' ++ s') (hs : NoDigit s)
    (hs' : NoDigit s') : t = t' := by
  induction t generalizing t' with
  | nil =>
    cases t' with
    | nil => rfl
    | cons c t' => exact absurd (h' c (by simp)) (hs c _ e)
  | cons c t ih =>
    cases t' with
    | nil => exact absurd (h c (by simp)) (hs' c _ e.symm)
    | cons c' t' =>
      simp only [List.cons_append, List.cons.injEq] at e
      rw [e.1, ih (fun x hx => h x (by simp [hx])) (fun x hx => h' x (by simp [hx])) e.2]

theorem integer_unique {t t' s s' : Text} {m n : Int} (h : Integer t m) (h' : Integer t' n) (e : t ++ s = t' ++ s')
    (hs : NoDigit s) (hs' : NoDigit s') : m = n := by
  have hm : ¬ ('0'.toNat ≤ '-'.toNat ∧ '-'.toNat ≤ '9'.toNat) := by decide
  have hne : ∀ {d : Text} {k : Nat} {r : Text}, Decimal d k → d ++ s = '-' :: r → False := by
    rintro d k r ⟨h1, h2, -⟩ e
    cases d with
    | nil => exact h1 rfl
    | cons c d =>
      cases e
      exact hm (h2 _ (by simp))
  have hne' : ∀ {d : Text} {k : Nat} {r : Text}, Decimal d k → d ++ s' = '-' :: r → False := by
    rintro d k r ⟨h1, h2, -⟩ e
    cases d with
    | nil => exact h1 rfl
    | cons c d =>
      cases e
      exact hm (h2 _ (by simp))
  rcases h with ⟨h0, h⟩ | ⟨h0, d, rfl, h⟩ <;> rcases h' with ⟨h0', h'⟩ | ⟨h0', d', rfl, h'⟩
  · have := digits_unique h.2.1 h'.2.1 e hs hs'
    subst this
    have := h.2.2.1.symm.trans h'.2.2.1
    omega
  · exact (hne h e).elim
  · exact (hne' h' e.symm).elim
  · simp only [List.cons_append, List.cons.injEq, true_and] at e
    have := digits_unique h.2.1 h'.2.1 e hs hs'
    subst this
    have := h.2.2.1.symm.trans h'.2.2.1
    omega

/-- C90. Likewise for integers. -/
theorem C90_number_injective {e : Err} (he : e ∈ numberErrors) {x y : Exc} {m n : Int}
    (hx : Tells x e (aboutNumber m)) (hy : Tells y e (aboutNumber n)) (h : x.message = y.message) : m = n := by
  have hs : ∃ s ps, sentence e = .say s :: .field "number" :: ps ∧
      (ps = [] ∨ ∃ w, ps = [.say w] ∧ (w.toList.head?.all fun c => ¬ ('0'.toNat ≤ c.toNat ∧ c.toNat ≤ '9'.toNat)) ∧ w.toList ≠ []) := by
    simp only [numberErrors, List.mem_cons, List.not_mem_nil, or_false] at he
    rcases he with rfl | rfl | rfl | rfl | rfl | rfl | rfl | rfl
    all_goals first
      | exact ⟨_, _, rfl, .inl rfl⟩
      | exact ⟨_, _, rfl, .inr ⟨_, rfl, by decide +kernel, by decide +kernel⟩⟩
  obtain ⟨s, ps, hs, hps⟩ := hs
  have hnd : ∀ {a : About} {u : Text}, Reads a ps u → NoDigit u := by
    intro a u hu c r hc
    rcases hps with rfl | ⟨w, rfl, hw, hw'⟩
    · rw [show u = [] from hu] at hc; cases hc
    · obtain ⟨v, rfl, -⟩ := hu
      cases hl : w.toList with
      | nil => exact absurd hl hw'
      | cons c' r' =>
        rw [hl] at hw hc
        simp only [List.cons_append, List.cons.injEq] at hc
        rw [← hc.1]
        simpa only [List.head?_cons, Option.all_some, decide_eq_true_eq] using hw
  obtain ⟨-, m', hm, hx⟩ := hx
  obtain ⟨-, m'', hm', hy⟩ := hy
  rw [hm, hm'] at h
  cases h
  rw [hs] at hx hy
  obtain ⟨a, ea, l, b, hl, rfl, hb⟩ := hx
  obtain ⟨c, ec, l', d, hl', rfl, hd⟩ := hy
  exact integer_unique hl.2 hl'.2 (List.append_cancel_left (ea.symm.trans ec)) (hnd hb) (hnd hd)

theorem ascii_append {a b : Text} (ha : Ascii a) (hb : Ascii b) : Ascii (a ++ b) := fun c hc =>
  (List.mem_append.1 hc).elim (ha c) (hb c)

/-- C90. `str(e)` is the message, provided that what is filled in is ASCII. -/
theorem C90_str {x : Exc} {e : Err} {a : About} (h : Tells x e a) (ha : ∀ f t, a f t → Ascii t) :
    ∃ m, x.message = some m ∧ x.str = some (.ok m) := by
  obtain ⟨-, m, hm, hr⟩ := h
  have key : ∀ (ps : List Part) (m : Text), ps.all (fun p => match p with
      | .say w => w.toList.all fun c => c.toNat < 128
      | .field _ => true) = true → Reads a ps m → Ascii m := by
    intro ps
    induction ps with
    | nil => intro m _ hm; rw [show m = [] from hm]; exact fun c hc => by cases hc
    | cons p ps ih =>
      intro m hp hm
      rw [List.all_cons, Bool.and_eq_true] at hp
      cases p with
      | say w =>
        obtain ⟨u, rfl, hu⟩ := hm
        have := hp.1
        simp only [List.all_eq_true, decide_eq_true_eq] at this
        exact ascii_append this (ih u hp.2 hu)
      | field f =>
        obtain ⟨t, u, ht, rfl, hu⟩ := hm
        exact ascii_append (ha f t ht) (ih u hp.2 hu)
  refine ⟨m, hm, ?_⟩
  unfold Exc.str asciiRepr
  rw [hm]
  exact congrArg some (if_pos ((isAscii_iff m).2 (key _ m (sentence_ascii e) hr)))

theorem decimal_ascii {t : Text} {n : Nat} (h : Decimal t n) : Ascii t := fun c hc => by
  have h1 : c.toNat ≤ '9'.toNat := (h.2.1 c hc).2
  have h2 : '9'.toNat = 57 := rfl
  omega

theorem integer_ascii {t : Text} {n : Int} (h : Integer t n) : Ascii t := by
  rcases h with ⟨-, h⟩ | ⟨-, m, rfl, h⟩
  · exact decimal_ascii h
  · intro c hc
    rcases List.mem_cons.1 hc with rfl | hc
    · decide
    · exact decimal_ascii h c hc

theorem name_ascii {t : Text} {b : Byte} (h : NameOf t b) : Ascii t := by
  obtain ⟨s, -, rfl, h⟩ := h
  have : ∀ p ∈ opcodeNames, ∀ c ∈ p.1.toList, c.toNat < 128 := by decide +kernel
  exact this _ h

theorem shows_ascii {t : Text} {o : Opcode} (h : ShowsOpcode o t) : Ascii t := by
  have h1 : Ascii "<Opcode PUSH ".toList ∧ Ascii " BYTES>".toList ∧ Ascii "<Opcode ".toList ∧ Ascii ": ".toList ∧
      Ascii ">".toList := by unfold Ascii; decide +kernel
  obtain ⟨d, hd, ⟨-, -, rfl⟩ | ⟨n, hn, rfl⟩⟩ := h
  · exact ascii_append (ascii_append h1.1 (decimal_ascii hd)) h1.2.1
  · exact ascii_append (ascii_append (ascii_append (ascii_append h1.2.2.1 (decimal_ascii hd)) h1.2.2.2.1) (name_ascii hn))
      h1.2.2.2.2

theorem mem_of_intersperse {α : Type} {s x : α} {l : List α} (h : x ∈ l.intersperse s) : x = s ∨ x ∈ l := by
  induction l with
  | nil => cases h
  | cons a l ih =>
    cases l with
    | nil => exact .inr h
    | cons b l =>
      rw [List.intersperse_cons₂] at h
      simp only [List.mem_cons] at h ih ⊢
      rcases h with h | h | h
      · exact .inr (.inl h)
      · exact .inl h
      · exact (ih h).imp_right .inr

/-- C90. What is filled in is ASCII, other than texts of networks and of objects. -/
theorem C90_ascii (f : String) (t : Text) :
    (∀ v, aboutString v f t → Ascii t) ∧ (∀ n, aboutNumber n f t → Ascii t) ∧ (∀ o, aboutOpcode o f t → Ascii t) ∧
    (∀ o, aboutName o f t → Ascii t) ∧ (∀ o n m, aboutPush o n m f t → Ascii t) ∧ (∀ n m, aboutRead n m f t → Ascii t) ∧
    (∀ n m, aboutCount n m f t → Ascii t) ∧ (aboutNothing f t → Ascii t) ∧
    (∀ key v, aboutValue key v f t → Ascii key.toList → (∀ s, v = .text s → Ascii s) → Ascii t) ∧
    (∀ s, aboutObject s f t → Ascii s → Ascii t) := by
  refine ⟨?_, fun n h => integer_ascii h.2, fun o h => shows_ascii h.2, ?_, ?_, ?_, ?_, False.elim, ?_, ?_⟩
  · rintro v (⟨-, h⟩ | ⟨-, h⟩)
    · exact literal_ascii h
    · exact decimal_ascii h
  · have h1 : Ascii "_PUSH_".toList ∧ Ascii "_BYTES".toList := by unfold Ascii; decide +kernel
    rintro o ⟨-, ⟨-, -, d, hd, rfl⟩ | h⟩
    · exact ascii_append (ascii_append h1.1 (decimal_ascii hd)) h1.2
    · exact name_ascii h
  · rintro o n m (⟨-, h⟩ | ⟨-, h⟩ | ⟨-, h⟩)
    · exact shows_ascii h
    · exact decimal_ascii h
    · exact decimal_ascii h
  · rintro n m (⟨-, h⟩ | ⟨-, h⟩) <;> exact decimal_ascii h
  · rintro n m (⟨-, h⟩ | ⟨-, h⟩) <;> exact decimal_ascii h
  · rintro key v (⟨-, rfl⟩ | ⟨-, h⟩) hk hv
    · exact hk
    · cases v with
      | network n => exact h.elim
      | int n => exact integer_ascii h
      | text s => rw [show t = s from h]; exact hv s rfl
      | list l =>
        obtain ⟨ls, hl, rfl⟩ := h
        have hls : ∀ x ∈ ls, Ascii x := by
          clear hv
          induction hl with
          | nil => simp
          | cons h _ ih => simpa using ⟨literal_ascii h, ih⟩
        have hi : Ascii (", ".toList.intercalate ls) := by
          intro c hc
          unfold List.intercalate at hc
          obtain ⟨x, hx, hc⟩ := List.mem_flatten.1 hc
          rcases mem_of_intersperse hx with rfl | hx
          · have : ∀ c ∈ ", ".toList, c.toNat < 128 := by decide +kernel
            exact this c hc
          · exact hls x hx c hc
        intro c hc
        simp only [List.mem_cons, List.mem_append, List.not_mem_nil, or_false] at hc
        rcases hc with rfl | hc | rfl
        · decide
        · exact hi c hc
        · decide
  · rintro s ⟨-, rfl⟩ h
    exact h

/-! ## Where the messages fall short -/

/-- C90 is false of the code: an Output is said to have to be an Input. -/
theorem C90_output_refuted (is : List Input) (hi : is ≠ []) (t : Text) (l v : Int) :
    ∃ x, Verbose.newTransaction (is.map .inr) [.inl t] l v = .error x ∧ x.cls = .txNotAnOutput ∧
      x.message = some ("Transaction expected instances of Input, got ".toList ++ t ++ " instead".toList) := by
  have h1 : ∀ is : List Input, Verbose.enforceAll .txNotAnInput (is.map .inr) = .ok is := by
    intro is
    induction is with
    | nil => rfl
    | cons i is ih => rw [List.map_cons]; unfold Verbose.enforceAll; rw [ih]; rfl
  have ht := tells_object (e := .txNotAnOutput) (by simp) t
  refine ⟨Exc.object .txNotAnOutput t, ?_, ht.1, ?_⟩
  · unfold Verbose.newTransaction
    rw [List.length_map, if_neg (by rw [List.length_eq_zero_iff]; exact hi), h1]
    rfl
  · obtain ⟨-, m, hm, u, rfl, a, b, ⟨-, rfl⟩, rfl, c, rfl, rfl⟩ := ht
    rw [hm]
    simp

theorem find_text (t : Text) (h : t ≠ "livenet".toList) (h' : t ≠ "testnet".toList) : Network.find? (.text t) = none := by
  unfold Network.find? Network.all Network.findLoop Network.findLoop Network.findLoop Network.getAttr
  have h1 : NetValue.text Network.livenet.name ≠ .text t := fun e => h (by injection e with e; exact e.symm)
  have h2 : NetValue.text Network.testnet.name ≠ .text t := fun e => h' (by injection e with e; exact e.symm)
  simp only [if_true, if_neg h1, if_neg h2]

/-- C90 is false of the code: the name of an unknown network that is not ASCII makes `str(e)` fail. -/
theorem C90_str_refuted (d : Option Int) (t : Text) (c : Bool) (r : Int) (h : ¬ Ascii t) :
    ∃ x, Verbose.newPrivateKey d (.text t) c r = .error x ∧ x.cls = .privUnknownNetwork ∧
      x.str = some (.error .unicodeEncodeError) := by
  have hf : Network.find? (.text t) = none := by
    refine find_text t ?_ ?_ <;> rintro rfl <;> exact h (by unfold Ascii; decide +kernel)
  have ht := tells_value (e := .privUnknownNetwork) (by simp) "name" (.text t) (by simp)
  refine ⟨Exc.keyValue .privUnknownNetwork "name" (.text t), ?_, ht.1, ?_⟩
  · unfold Verbose.newPrivateKey Verbose.findNetworkAs Verbose.findNetwork
    rw [hf]
  · obtain ⟨-, m, hm, u, rfl, k, u, -, rfl, u, rfl, a, b, ha, rfl, -⟩ := ht
    unfold Exc.str asciiRepr
    rw [hm]
    refine congrArg some (if_neg fun hn => h fun c hc => (isAscii_iff _).1 hn c ?_)
    rcases ha with ⟨e, -⟩ | ⟨-, rfl⟩
    · exact absurd e (by decide)
    · simp [hc]

/-- C90 is false of the code: exceptions are logged, and this one has the secret of a key in it.  The text of a
compressed key whose last byte is wrong is in the message. -/
theorem C90_secret_refuted (H : Hashes) (p b : Byte) (s : Bytes) (hs : s.length = 32) (hb : b ≠ 1) (t : Text)
    (ht : Base58Check H (p :: (s ++ [b])) t) :
    ∃ x, Verbose.fromWif H t = .error x ∧ Tells x .privInvalidCompressionByte (aboutString (.unicode t)) := by
  rw [base58Check_iff] at ht
  rcases recast_cases (old := .invalidBase58h) (new := .privInvalidBase58h) (by decide) trivial t (C90_base58 H t) with
    ⟨z, h1, -, -⟩ | ⟨e, z, -, h1, -, -, -⟩ | ⟨b', h1, h2⟩ <;> rw [ht] at h1 <;> cases h1
  refine ⟨_, ?_, tells_string (e := .privInvalidCompressionByte) (by decide) (.unicode t)⟩
  unfold Verbose.fromWif
  rw [h2]
  have hl : (p :: (s ++ [b])).length = 34 := by simp [hs]
  simp only
  rw [if_neg (by rw [hl]; decide), if_pos hl, if_pos]
  rw [← List.cons_append, List.getLast?_concat]
  simpa using hb

/-- C90 is false of the code: the operations of opcodes without a name raise KeyError. -/
theorem C90_nameless_refuted (o : Opcode) (h : ¬ Named o.number) (d : Data) :
    Verbose.numberValue o = .error (.runtime .keyError) ∧ Verbose.dataLengthNbytes o = .error (.runtime .keyError) ∧
    Verbose.makeInstruction o (some d) = .error (.runtime .keyError) := by
  obtain ⟨b⟩ := o
  have hb : ∀ b : Byte, ¬ Named b → (Opcode.mk b).isNumber = false ∧ (Opcode.mk b).isPush = false ∧
    Opcode.mk b ≠ .num 76 ∧ Opcode.mk b ≠ .num 77 ∧ Opcode.mk b ≠ .num 78 := by decide +kernel
  obtain ⟨h1, h2, h3, h4, h5⟩ := hb b h
  refine ⟨?_, ?_, ?_⟩
  · unfold Verbose.numberValue
    rw [if_pos (by rw [h1]; decide), wrongType_nameless h]
  · unfold Verbose.dataLengthNbytes
    rw [if_neg h3, if_neg h4, if_neg h5, wrongType_nameless h]
  · unfold Verbose.makeInstruction
    rw [if_neg (by rw [h2]; decide), if_pos (by simp), opcode_nameless h]

example : Verbose.addressFromHex "0g".toList =
    .error ⟨.addrInvalidHex, some "The Address string u'0g' is not valid hexadecimal".toList⟩ := by decide +kernel

example : Verbose.scriptFromText "OP_DUP OP_FOO".toList =
    .error ⟨.scrUnknownOpcodeName, some "No known operation named u'OP_FOO'".toList⟩ := by decide +kernel

example : (Verbose.newPrivateKey (some (-5)) (.network .livenet) true 0) =
    .error ⟨.privInvalidSecret, some "Invalid secret for PrivateKey: -5".toList⟩ := by decide +kernel

example : Verbose.privateFromBytes ⟨.str, [39, 34, 0, 65, 92, 10, 200]⟩ = .error ⟨.privInvalidBinaryLength,
    some ("The PrivateKey's binary secret '\\'\"\\x00A\\\\\\n\\xc8' should be 32 bytes long, not 7").toList⟩ := by
  decide +kernel

example : Verbose.makeInstruction (.num 3) (some ⟨.str, [1, 2]⟩) = .error ⟨.insInvalidDataLength,
    some "Opcode <Opcode PUSH 3 BYTES> can't push 2 bytes (max/exactly 3)".toList⟩ := by decide +kernel

example : Verbose.findNetwork (.int 7) "wif_prefix" = .error ⟨.unknownNetwork,
    some "No network with an attribute 'wif_prefix' of value 7".toList⟩ := by decide +kernel

example : Verbose.read 5 [1, 2] = .error ⟨.insufficientData 2 5,
    some "Attempted to read 5 bytes, but buffer only has 2".toList⟩ := by decide +kernel

example : Verbose.numberValue (.num 118) = .error ⟨.opWrongType,
    some "Opcode OP_DUP does not support this operation".toList⟩ := by decide +kernel

example : Verbose.dataOutput ⟨.str, List.replicate 81 0⟩ = .error ⟨.outTooMuchData,
    some "DataOutputs can carry at most 80 bytes, but 81 were passed in".toList⟩ := by decide +kernel

example : (Exc.string .opUnknownName (.unicode "é".toList)).message ≠ (Exc.string .opUnknownName (.unicode "\\xe9".toList)).message := by
  decide +kernel

example : ¬ Ascii "é".toList := by unfold Ascii; decide +kernel

example : Base58Check Hashes.toy (128 :: (List.replicate 32 7 ++ [2]))
    (encodeBase58h Hashes.toy (128 :: (List.replicate 32 7 ++ [2]))) := by
  rw [base58Check_iff]
  decide +kernel

example : ¬ Named (Opcode.num 98).number := by decide

end Bitforge
