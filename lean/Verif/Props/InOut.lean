import Verif.RealHashes
import Verif.Props.Sign

/-! # C41–C43: signed multisig transactions, `can_sign`, and the constructors of outputs -/

namespace Bitforge
open Spec
open Transaction (atIndex pyIndex)

/-! ## C41 serialising signed transactions -/

/-- `u` is the result of signing inputs of `t`, in any order, by index from 0, with signers whose signatures have at
most 74 bytes (a DER signature has at most 72) and with keys that the constructor makes. -/
inductive Signs (H : Hashes) : Transaction → Transaction → Prop
  | refl (t) : Signs H t t
  | step {t u v S ks} {i st : Int} : Signs H t u → 0 ≤ i → u.sign H S ks i st = .ok v →
      (∀ n k m s, S n k m = .ok s → s.length ≤ 74) → (∀ k ∈ ks, k.Good) → Signs H t v

/-- `y` is `x` signed, in this sense. -/
def SignedTo (x y : Input) : Prop := ∃ S ks p st, (∀ n k m s, S n k m = .ok s → s.length ≤ 74) ∧
  (∀ k ∈ ks, PrivateKey.Good k) ∧ x.sign S ks p st = .ok y

theorem signs_inputs {H : Hashes} {t u : Transaction} (h : Signs H t u) : u.version = t.version ∧
    u.lockTime = t.lockTime ∧ u.outputs = t.outputs ∧ u.inputs.length = t.inputs.length ∧
    ∀ (n : Nat) (x : Input), t.inputs[n]? = some x → ∃ y, u.inputs[n]? = some y ∧ (y = x ∨ SignedTo x y) := by
  induction h with
  | refl => exact ⟨rfl, rfl, rfl, rfl, fun n x hx => ⟨x, hx, .inl rfl⟩⟩
  | @step u v S ks i st h hi hs hS hk ih =>
    obtain ⟨a1, a2, a3, a4, a5⟩ := ih
    obtain ⟨b1, b2, b3, b4, b5, b6⟩ := C37_frame _ _ _ _ _ _ _ hs
    refine ⟨b1.trans a1, b2.trans a2, b3.trans a3, b4.trans a4, fun n x hx => ?_⟩
    obtain ⟨y, hy, hxy⟩ := a5 n x hx
    by_cases hn : (n : Int) = i
    · obtain ⟨y', z, p, hy', hz, _, hyz, _⟩ := b6 n hn
      rw [hy] at hy'
      cases hy'
      refine ⟨z, hz, .inr ?_⟩
      rcases hxy with rfl | ⟨S', ks', p', st', _, _, hxy⟩
      · exact ⟨S, ks, p, st, hS, hk, hyz⟩
      · exfalso
        have := (input_sign_ok hxy).2
        exact (input_sign_ok hyz).1 (by rw [this]; rfl)
    · exact ⟨y, by rw [b5 n hn]; exact hy, hxy⟩

theorem signatures_ok {S : Signer} {p : Bytes} {st : Int} (hS : ∀ n k m s, S n k m = .ok s → s.length ≤ 74) :
    ∀ (n : Nat) (ks : List PrivateKey) (ds : List Data), Input.signatures S p st n ks = .ok ds →
      ds.length = ks.length ∧ ∀ d ∈ ds, d.kind = .str ∧ 1 ≤ d.val.length ∧ d.val.length ≤ 75
  | n, [], ds, h => by cases h; simp
  | n, k :: ks, ds, h => by
    unfold Input.signatures at h
    split at h
    · cases h
    · next d hd =>
      split at h
      · cases h
      · next ds' hds =>
        cases h
        obtain ⟨h1, h2⟩ := signatures_ok hS (n + 1) ks ds' hds
        obtain ⟨s, c, hs, _, _, _, rfl⟩ := signature_ok hd
        refine ⟨by simp [h1], ?_⟩
        intro d hd'
        rcases List.mem_cons.1 hd' with rfl | hd'
        · have := hS _ _ _ _ hs
          exact ⟨rfl, by simp, by simp only [List.length_append, List.length_cons, List.length_nil]; omega⟩
        · exact h2 d hd'

/-- A signed input is made of well-formed instructions; it uses PUSHDATA iff it is not an AddressInput and the redeem
script has more than 75 bytes. -/
theorem signedTo_script {x y : Input} (h : SignedTo x y) : y = x.replaceScript y.script ∧ y.script.WellFormed ∧
    (y.script.HasPushData ↔ x.cls ≠ .address ∧ ∃ rb, x.script.toBytes = .ok rb ∧ 75 < rb.length) := by
  obtain ⟨S, ks, p, st, hS, hk, h⟩ := h
  refine ⟨(input_sign_ok h).2, ?_⟩
  unfold Input.sign at h
  have key : x.signScript S ks p st = .ok y → y.script.WellFormed ∧ (y.script.HasPushData ↔
      ∃ rb, x.script.toBytes = .ok rb ∧ 75 < rb.length) := by
    intro h
    unfold Input.signScript at h
    split at h
    · cases h
    · next ds hds =>
      split at h
      · cases h
      · next s hs =>
        cases h
        unfold PayToScriptIn.create at hs
        split at hs
        · cases hs
        · next rb hrb =>
          obtain ⟨h1, h2⟩ := ofSchematic_simple _ _ _ (by
            intro z hz
            simp only [List.mem_append, List.mem_map, List.mem_cons, List.not_mem_nil, or_false] at hz
            rcases hz with (rfl | ⟨d, _, rfl⟩) | rfl <;> trivial) hs
          refine ⟨h1, h2.trans ?_⟩
          constructor
          · rintro ⟨d, hd, hl⟩
            simp only [List.mem_append, List.mem_map, List.mem_cons, List.not_mem_nil, or_false, reduceCtorEq,
              SchemItem.bytes.injEq, false_or, exists_eq_right] at hd
            rcases hd with hd | rfl
            · have := ((signatures_ok hS _ _ _ hds).2 d hd).2.2; omega
            · exact ⟨rb, hrb, hl⟩
          · rintro ⟨rb', hrb', hl⟩
            rw [hrb] at hrb'
            cases hrb'
            exact ⟨⟨.str, rb⟩, by simp, hl⟩
  cases hc : x.cls <;> rw [hc] at h <;> simp only [] at h
  · cases h
  · simp only [ne_eq, not_true_eq_false, false_and, iff_false]
    unfold Input.signAddress at h
    split at h
    · next k =>
      obtain ⟨pk, hpk, hv, _⟩ := good_public k (hk k (by simp))
      rw [hpk] at h
      simp only [] at h
      split at h
      · cases h
      · next d hd =>
        split at h
        · cases h
        · next s hs =>
          cases h
          unfold PayToPubkeyIn.create at hs
          obtain ⟨b, hb, hbl, _⟩ := valid_bytes pk hv
          rw [hb] at hs
          simp only [] at hs
          obtain ⟨h1, h2⟩ := ofSchematic_simple _ _ _ (by
            intro z hz
            simp only [List.mem_cons, List.not_mem_nil, or_false] at hz
            rcases hz with rfl | rfl <;> trivial) hs
          refine ⟨h1, fun hp => ?_⟩
          obtain ⟨d', hd', hl⟩ := h2.1 hp
          simp only [List.mem_cons, List.not_mem_nil, or_false, SchemItem.bytes.injEq] at hd'
          rcases hd' with rfl | rfl
          · obtain ⟨sg, c, hsg, _, _, _, rfl⟩ := signature_ok hd
            have := hS _ _ _ _ hsg
            simp only [List.length_append, List.length_cons, List.length_nil] at hl
            omega
          · simp only [] at hl
            rw [hbl] at hl
            split at hl <;> omega
    · cases h
  · exact ⟨(key h).1, by simpa using (key h).2⟩
  · exact ⟨(key h).1, by simpa using (key h).2⟩

theorem signs_shows {H : Hashes} {t u : Transaction} (h : Signs H t u) (ht : t.InRange) : ∃ w, u.Shows w := by
  obtain ⟨a1, a2, a3, a4, a5⟩ := signs_inputs h
  obtain ⟨w, ⟨w1, w2, w3, w4⟩, _⟩ := tx_shows t ht
  have hin : ∃ ws, List.Forall₂ Input.Shows u.inputs ws ∧ ∀ y ∈ ws, True := by
    apply forall₂_exists
    intro y hy
    obtain ⟨n, hn⟩ := List.mem_iff_getElem?.1 hy
    have hlt := (List.getElem?_eq_some_iff.1 hn).1
    have hx : t.inputs[n]? = some (t.inputs[n]'(by omega)) := List.getElem?_eq_getElem _
    obtain ⟨y', hy', hxy⟩ := a5 n _ hx
    rw [hn] at hy'
    cases hy'
    obtain ⟨wx, _, hwx⟩ := forall₂_mem_left w2 (List.getElem_mem (by omega : n < t.inputs.length))
    rcases hxy with e | hs
    · exact ⟨wx, e ▸ hwx, trivial⟩
    · obtain ⟨e, hw, _⟩ := signedTo_script hs
      obtain ⟨b, hb⟩ := wellFormed_encodes _ hw
      refine ⟨{ wx with script := b }, ⟨?_, ?_, hb, ?_⟩, trivial⟩
      · rw [e]; exact hwx.1
      · rw [e]; exact hwx.2.1
      · rw [e]; exact hwx.2.2.2
  obtain ⟨ws, hws, _⟩ := hin
  exact ⟨⟨w.version, ws, w.outputs, w.lockTime⟩, a1 ▸ w1, hws, a3 ▸ w3, a2 ▸ w4⟩

/-- C41, part that holds: when no redeem script has more than 75 bytes, whatever has been signed can be serialised.
Missing: longer redeem scripts (see the refutations). -/
theorem C41_serialises_partial (H : Hashes) (t u : Transaction) (ht : t.InRange) (hp : ¬ t.HasPushData)
    (hr : ∀ x ∈ t.inputs, x.cls ≠ .address → ∀ rb, x.script.toBytes = .ok rb → rb.length ≤ 75) (h : Signs H t u) :
    ∃ w b, u.Shows w ∧ u.toBytes = .ok b ∧ b = w.bytes := by
  obtain ⟨w, hw⟩ := signs_shows h ht
  obtain ⟨_, _, a3, a4, a5⟩ := signs_inputs h
  refine ⟨w, w.bytes, hw, ?_, rfl⟩
  rw [tx_toBytes u w hw, if_neg]
  rintro (⟨y, hy, hpy⟩ | ⟨o, ho, hpo⟩)
  · obtain ⟨n, hn⟩ := List.mem_iff_getElem?.1 hy
    have hlt := (List.getElem?_eq_some_iff.1 hn).1
    have hx : t.inputs[n]? = some (t.inputs[n]'(by omega)) := List.getElem?_eq_getElem _
    obtain ⟨y', hy', hxy⟩ := a5 n _ hx
    rw [hn] at hy'
    cases hy'
    rcases hxy with e | hs
    · exact hp (.inl ⟨y, e ▸ List.getElem_mem _, hpy⟩)
    · obtain ⟨hc, rb, hrb, hl⟩ := (signedTo_script hs).2.2.1 hpy
      have := hr _ (List.getElem_mem _) hc rb hrb
      omega
  · exact hp (.inr ⟨o, a3 ▸ ho, hpo⟩)

/-- C41 is false of the code: once an input with a longer redeem script is signed, the transaction cannot be
serialised. -/
theorem C41_long_redeem_refuted (H : Hashes) (t u : Transaction) (ht : t.InRange) (h : Signs H t u) (n : Nat)
    (x y : Input) (hx : t.inputs[n]? = some x) (hy : u.inputs[n]? = some y) (hxy : SignedTo x y) (hc : x.cls ≠ .address)
    (rb : Bytes) (hrb : x.script.toBytes = .ok rb) (hl : 75 < rb.length) : u.toBytes = .error .typeError := by
  obtain ⟨w, hw⟩ := signs_shows h ht
  rw [tx_toBytes u w hw, if_pos]
  exact .inl ⟨y, List.mem_of_getElem? hy, (signedTo_script hxy).2.2.2 ⟨hc, rb, hrb, hl⟩⟩

/-- Schematics of opcodes that push nothing and byte strings of 1 to 75 bytes. -/
def SchemItem.Short : SchemItem → Prop
  | .opcode o => pushKind o.number = .plain
  | .bytes d => d.kind = .str ∧ 1 ≤ d.val.length ∧ d.val.length ≤ 75
  | _ => False

/-- Their wire format. -/
def SchemItem.rendered : SchemItem → Bytes
  | .opcode o => [o.number]
  | .bytes d => byte d.val.length :: d.val
  | _ => []

theorem const_table : ∀ b : Byte, 1 ≤ b.val → b.val ≤ 75 → (Opcode.mk b).isConstPush = true ∧
    pushKind b = .direct b.val := by decide +kernel

theorem plain_table : ∀ b : Byte, pushKind b = .plain → (Opcode.mk b).isConstPush = false ∧
    (Opcode.mk b).isVarPush = false := by decide +kernel

theorem item_short (x : SchemItem) (h : x.Short) : ∃ i, x.instruction = .ok i ∧ i.toBytes = .ok x.rendered := by
  cases x with
  | opcode o =>
    refine ⟨_, instruction_opcode o h, ?_⟩
    obtain ⟨h1, h2⟩ := plain_table o.number h
    unfold Instruction.toBytes
    simp only [h1, h2, SchemItem.rendered]
    rfl
  | bytes d =>
    obtain ⟨k, b⟩ := d
    obtain ⟨rfl, h1, h2⟩ : k = .str ∧ 1 ≤ b.length ∧ b.length ≤ 75 := h
    have hv : (byte b.length).val = b.length := by simp [byte]; omega
    have ho : Opcode.num b.length = ⟨byte b.length⟩ := by
      have := mk_fin b.length (by omega)
      rw [this]; simp only [Opcode.mk.injEq]; apply Fin.ext; exact hv.symm
    obtain ⟨t1, t2⟩ := const_table (byte b.length) (by omega) (by omega)
    have hp : Opcode.pushFor (b.length : Int) = .ok ⟨byte b.length⟩ := by
      rw [pushFor_table, if_neg (by omega), if_pos (by omega), Int.toNat_natCast, ho]
    refine ⟨⟨⟨byte b.length⟩, some ⟨.str, b⟩⟩, ?_, ?_⟩
    · simp only [SchemItem.instruction, hp, bind, Except.bind, instr_make, t2]
      rw [if_pos (by simpa using hv.symm)]
    · unfold Instruction.toBytes
      simp only [t1, SchemItem.rendered]
      rfl
  | _ => exact h.elim

theorem schematic_short : ∀ l : List SchemItem, (∀ x ∈ l, x.Short) → ∃ is, toInstructions l = .ok is ∧
    Script.bytesOf is = .ok (l.flatMap SchemItem.rendered)
  | [], _ => ⟨[], rfl, rfl⟩
  | x :: l, h => by
    obtain ⟨is, h1, h2⟩ := schematic_short l fun y hy => h y (by simp [hy])
    obtain ⟨i, h3, h4⟩ := item_short x (h x (by simp))
    exact ⟨i :: is, (toInstructions_cons _ _ _).2 ⟨i, is, h3, h1, rfl⟩, by
      simp only [Script.bytesOf, h4, h2, List.flatMap_cons]⟩

/-- The byte of a small number. -/
def smallByte (n : Nat) : Byte := if n = 0 then 0 else byte (80 + n)

theorem forNumber_small (n : Nat) (h : n ≤ 16) : Opcode.forNumber n = .ok ⟨smallByte n⟩ ∧
    pushKind (smallByte n) = .plain := by
  have : ∀ n : Fin 17, Opcode.forNumber n.val = .ok ⟨smallByte n.val⟩ ∧ pushKind (smallByte n.val) = .plain := by
    decide +kernel
  exact this ⟨n, by omega⟩

theorem mapM_keys (ks : List PublicKey) (h : ∀ k ∈ ks, k.Valid) : ∃ bs, ks.mapM PublicKey.toBytes = .ok bs ∧
    List.Forall₂ (fun k b => k.toBytes = .ok b ∧ b.length = if k.compressed then 33 else 65) ks bs := by
  induction ks with
  | nil => exact ⟨[], rfl, .nil⟩
  | cons k ks ih =>
    obtain ⟨bs, h1, h2⟩ := ih fun x hx => h x (by simp [hx])
    obtain ⟨b, hb, hl, _⟩ := valid_bytes k (h k (by simp))
    exact ⟨b :: bs, by rw [List.mapM_cons, hb, h1]; rfl, .cons ⟨hb, hl⟩ h2⟩

/-- C32, C41, C43. The bytes of a redeem script. -/
theorem C41_redeem_bytes (ks : List PublicKey) (m : Nat) (hk : ∀ k ∈ ks, k.Valid) (hm : m ≤ 16)
    (h2 : ks.length ≤ 16) : ∃ s bs, RedeemMultisig.create ks m = .ok s ∧ s.cls = .redeemMultisig ∧
      List.Forall₂ (fun k b => k.toBytes = .ok b ∧ b.length = if k.compressed then 33 else 65) ks bs ∧
      s.toBytes = .ok (smallByte m :: ((bs.flatMap fun b => byte b.length :: b) ++ [smallByte ks.length, 174])) := by
  obtain ⟨f1, f2⟩ := forNumber_small m hm
  obtain ⟨g1, g2⟩ := forNumber_small ks.length h2
  obtain ⟨bs, hbs, hf⟩ := mapM_keys ks hk
  obtain ⟨is, his, hby⟩ := schematic_short ([.opcode ⟨smallByte m⟩] ++ bs.map (fun b => .bytes ⟨.str, b⟩) ++
    [.opcode ⟨smallByte ks.length⟩] ++ [.opcode (.num 174)]) (by
      intro x hx
      simp only [List.mem_append, List.mem_cons, List.not_mem_nil, or_false, List.mem_map] at hx
      rcases hx with ((rfl | ⟨b, hb, rfl⟩) | rfl) | rfl
      · exact f2
      · obtain ⟨k, _, _, hl⟩ := forall₂_mem_left hf.flip hb
        refine ⟨rfl, ?_⟩
        show 1 ≤ b.length ∧ b.length ≤ 75
        rw [hl]; split <;> omega
      · exact g2
      · show pushKind _ = .plain; decide)
  refine ⟨⟨.redeemMultisig, is⟩, bs, ?_, rfl, hf, ?_⟩
  · unfold RedeemMultisig.create
    simp only [f1, hbs, g1, bind, Except.bind, ofSchematic, his]
  · show Script.bytesOf is = _
    rw [hby]
    simp only [List.flatMap_append, List.flatMap_cons, List.flatMap_nil, List.append_nil, SchemItem.rendered,
      List.flatMap_map, List.cons_append, List.nil_append, List.append_assoc]
    rfl

theorem flatMap_length_keys {ks : List PublicKey} {bs : List Bytes}
    (h : List.Forall₂ (fun k b => k.toBytes = .ok b ∧ b.length = if k.compressed then 33 else 65) ks bs) :
    (bs.flatMap fun b => byte b.length :: b).length = (ks.map fun k => if k.compressed then 34 else 66).sum := by
  induction h with
  | nil => rfl
  | @cons k b ks bs hkb _ ih =>
    simp only [List.flatMap_cons, List.length_append, List.length_cons, ih, List.map_cons, List.sum_cons, hkb.2]
    split <;> rfl

/-- C41. The length of a redeem script: 3 bytes, and 34 for each compressed key, 66 for each uncompressed one.  So three
keys are always too many, and so are two unless both are compressed. -/
theorem C41_redeem_length (ks : List PublicKey) (m : Nat) (hk : ∀ k ∈ ks, k.Valid) (hm : m ≤ 16)
    (h2 : ks.length ≤ 16) : ∃ s b, RedeemMultisig.create ks m = .ok s ∧ s.toBytes = .ok b ∧
      b.length = 3 + (ks.map fun k => if k.compressed then 34 else 66).sum ∧
      (b.length ≤ 75 ↔ ks.length ≤ 1 ∨ ks.length = 2 ∧ ∀ k ∈ ks, k.compressed = true) := by
  obtain ⟨s, bs, h1, _, hf, hb⟩ := C41_redeem_bytes ks m hk hm h2
  have hl : (smallByte m :: ((bs.flatMap fun b => byte b.length :: b) ++ [smallByte ks.length, 174])).length =
      3 + (ks.map fun k => if k.compressed then 34 else 66).sum := by
    simp only [List.length_cons, List.length_append, List.length_nil, flatMap_length_keys hf]
    omega
  refine ⟨s, _, h1, hb, hl, ?_⟩
  rw [hl]
  match ks with
  | [] => simp
  | [k] => simp only [List.map_cons, List.map_nil, List.sum_cons, List.sum_nil, List.length_cons, List.length_nil]
           constructor
           · intro _; left; omega
           · intro _; split <;> omega
  | [k, k'] =>
    simp only [List.map_cons, List.map_nil, List.sum_cons, List.sum_nil, List.length_cons, List.length_nil,
      List.mem_cons, List.not_mem_nil, or_false, forall_eq_or_imp, forall_eq]
    cases k.compressed <;> cases k'.compressed <;> simp
  | k :: k' :: k'' :: ks =>
    simp only [List.map_cons, List.sum_cons, List.length_cons]
    constructor
    · intro h; exfalso; split at h <;> split at h <;> split at h <;> omega
    · intro h; omega

/-- The public key of the secret 1. -/
def keyG : PublicKey := ⟨(secpGx, secpGy), .livenet, true⟩

/-- A transaction with a 2-of-3 MultisigInput, as in the README. -/
def multisigTx : Except Err Transaction :=
  match MultisigInput.create (List.replicate 64 'a') 0 [keyG, keyG, keyG] 2 with
  | .error e => .error e
  | .ok i => .ok ⟨[i], [sampleOutput], 0, 1⟩

/-- C41 is false of the code: the README's 2-of-3 transaction, signed, cannot be serialised. -/
theorem C41_two_of_three_refuted : ∃ (S : Signer) (t u : Transaction) (ks : List PrivateKey),
    multisigTx = .ok t ∧ t.sign .real S ks 0 = .ok u ∧ (∃ b, t.toBytes = .ok b) ∧ u.toBytes = .error .typeError := by
  have h : (match multisigTx with
    | .error _ => false
    | .ok t => match t.sign .real (fun _ _ _ => .ok [9, 9]) [⟨1, .livenet, true⟩, ⟨1, .livenet, true⟩] 0 with
      | .error _ => false
      | .ok u => decide (t.toBytes.isOk = true ∧ u.toBytes = .error .typeError)) = true := by decide +kernel
  split at h
  · cases h
  · next t ht =>
    split at h
    · cases h
    · next u hu =>
      obtain ⟨h1, h2⟩ := of_decide_eq_true h
      refine ⟨_, t, u, _, ht, hu, ?_, h2⟩
      cases hb : t.toBytes with
      | error e => rw [hb] at h1; cases h1
      | ok b => exact ⟨b, rfl⟩

/-- A signed transaction that can be serialised. -/
example : ∃ (t u : Transaction) (b : Bytes), t.InRange ∧ ¬ t.HasPushData ∧
    (∀ x ∈ t.inputs, x.cls ≠ .address → ∀ rb, x.script.toBytes = .ok rb → rb.length ≤ 75) ∧
    Signs .toy t u ∧ u ≠ t ∧ u.toBytes = .ok b := by
  have hs : Signs .toy scriptTx scriptTxSigned := .step (S := fun _ _ _ => .ok [9, 9]) (ks := [⟨1, .livenet, true⟩])
    (st := 1) (.refl _) (le_refl 0) (by decide +kernel) (by rintro _ _ _ _ h; cases h; decide)
    (by intro k hk; rw [List.mem_singleton.1 hk]; exact ⟨by decide, by decide⟩)
  have h3 : ∀ x ∈ scriptTx.inputs, x.cls ≠ .address → ∀ rb, x.script.toBytes = .ok rb → rb.length ≤ 75 := by
    intro x hx _ rb hrb
    rw [List.mem_singleton.1 hx] at hrb
    have : rb = [81] := by
      have e : (ScriptInput.create (List.replicate 64 'a') 0 ⟨.generic, [⟨.num 81, none⟩]⟩).script.toBytes = .ok [81] := by
        decide +kernel
      rw [e] at hrb; cases hrb; rfl
    rw [this]; decide
  obtain ⟨_, b, _, hb, _⟩ := C41_serialises_partial .toy scriptTx scriptTxSigned script_tx (by decide) h3 hs
  exact ⟨_, _, b, script_tx, by decide, h3, hs, by decide +kernel, hb⟩

/-! ## C42 `can_sign` -/

/-- C42. `AddressInput.can_sign` is True iff there is exactly one key and its hash is the input's. -/
theorem C42_address (H : Hashes) (id : Text) (ix seq : Int) (a : Address) (ha : a.phash.length = 20)
    (ks : List PrivateKey) (hk : ∀ k ∈ ks, k.Good) : ∃ i r, AddressInput.create id ix a seq = .ok i ∧
      AddressInput.canSign H i ks = .ok r ∧
      (r = true ↔ ∃ k p b, ks = [k] ∧ k.toPublicKey = .ok p ∧ p.toBytes = .ok b ∧
        H.ripemd160 (H.sha256 b) = a.phash) := by
  obtain ⟨s, h1, hc, _, _, hg⟩ := C32_pubkey_out a ha
  refine ⟨⟨.address, id, ix, s, seq⟩, ?_⟩
  have hcr : AddressInput.create id ix a seq = .ok ⟨.address, id, ix, s, seq⟩ := by
    unfold AddressInput.create; rw [h1]
  match ks, hk with
  | [], _ => exact ⟨false, hcr, rfl, by simp⟩
  | _ :: _ :: _, _ => exact ⟨false, hcr, rfl, by simp⟩
  | [k], hk =>
    have hgk := hk k (by simp)
    have hm : PrivateKey.make k.secret (.network k.network) k.compressed = .ok k := by
      rw [make_network, if_pos ⟨hgk.1, hgk.2⟩]
    obtain ⟨p, b, hp, hb, hka⟩ := C20_address H _ _ _ _ hm
    refine ⟨H.ripemd160 (H.sha256 b) == a.phash, hcr, ?_, ?_⟩
    · simp only [AddressInput.canSign, hka, hc, hg, if_true, Option.map_some]
      rfl
    · rw [beq_iff_eq]
      constructor
      · intro e; exact ⟨k, p, b, rfl, hp, hb, e⟩
      · rintro ⟨k', p', b', e, hp', hb', h⟩
        cases e
        rw [hp] at hp'; cases hp'
        rw [hb] at hb'; cases hb'
        exact h

theorem allExpected_spec (expected : List PublicKey) : ∀ ks : List PrivateKey, (∀ k ∈ ks, k.Good) →
    ∃ r, MultisigInput.allExpected expected ks = .ok r ∧
      (r = true ↔ ∀ k ∈ ks, ∃ p, k.toPublicKey = .ok p ∧ p ∈ expected)
  | [], _ => ⟨true, rfl, by simp⟩
  | k :: ks, hk => by
    obtain ⟨r, h1, h2⟩ := allExpected_spec expected ks fun x hx => hk x (by simp [hx])
    obtain ⟨p, hp, _⟩ := good_public k (hk k (by simp))
    unfold MultisigInput.allExpected
    simp only [hp]
    by_cases hm : p ∈ expected
    · rw [if_pos hm]
      refine ⟨r, h1, h2.trans ?_⟩
      simp only [List.mem_cons, forall_eq_or_imp, hp, Except.ok.injEq, exists_eq_left', hm, true_and]
    · rw [if_neg hm]
      refine ⟨false, rfl, ?_⟩
      simp [hp, hm]

/-- C42, part that holds: `MultisigInput.can_sign` is True iff there are `min_signatures` keys and each is a livenet key
whose public key is in the redeem script.  Missing: that the keys are distinct, and keys of the test network (see the
refutations). -/
theorem C42_multisig_partial (id : Text) (ix seq : Int) (pubs : List PublicKey) (m : Nat) (hv : ∀ p ∈ pubs, p.Valid)
    (hm : m ≤ 16) (h1 : 1 ≤ pubs.length) (h2 : pubs.length ≤ 16) (ks : List PrivateKey) (hk : ∀ k ∈ ks, k.Good) :
    ∃ i r, MultisigInput.create id ix pubs m seq = .ok i ∧ MultisigInput.canSign i ks = .ok r ∧
      (r = true ↔ ks.length = m ∧ ∀ k ∈ ks, k.network = .livenet ∧
        ∃ p, k.toPublicKey = .ok p ∧ ∃ q ∈ pubs, p.pair = q.pair ∧ p.compressed = q.compressed) := by
  obtain ⟨s, hs, hc, _, _, hmin, hpk⟩ := C32_multisig pubs m hv hm h1 h2
  refine ⟨⟨.multisig, id, ix, s, seq⟩, ?_⟩
  have hcr : MultisigInput.create id ix pubs m seq = .ok ⟨.multisig, id, ix, s, seq⟩ := by
    unfold MultisigInput.create; rw [hs]
  obtain ⟨r, hr1, hr2⟩ := allExpected_spec (pubs.map fun k => ⟨k.pair, .livenet, k.compressed⟩) ks hk
  by_cases hl : ks.length = m
  · refine ⟨r, hcr, ?_, hr2.trans ?_⟩
    · unfold MultisigInput.canSign
      simp only [hc, if_true, hmin, hpk]
      rw [if_neg (by omega)]
      exact hr1
    · simp only [hl, true_and]
      apply forall₂_congr
      intro k hkm
      obtain ⟨p, hp, _, hn, hcomp⟩ := good_public k (hk k hkm)
      simp only [hp, Except.ok.injEq, exists_eq_left', List.mem_map]
      constructor
      · rintro ⟨q, hq, rfl⟩
        exact ⟨hn.symm, q, hq, rfl, rfl⟩
      · rintro ⟨hnl, q, hq, e1, e2⟩
        refine ⟨q, hq, ?_⟩
        rw [hnl] at hn
        rw [← e1, ← e2, ← hn]
  · refine ⟨false, hcr, ?_, by simp [hl]⟩
    unfold MultisigInput.canSign
    simp only [hc, if_true, hmin]
    rw [if_pos (by omega)]

/-- C42 is false of the code: the same key twice is accepted for two signatures, whatever the other keys are. -/
theorem C42_duplicates_refuted (id : Text) (ix : Int) (k : PrivateKey) (p : PublicKey) (pubs : List PublicKey)
    (hk : k.Good) (hn : k.network = .livenet) (hp : k.toPublicKey = .ok p) (hv : ∀ p ∈ pubs, p.Valid)
    (hl : pubs.length ≤ 15) : ∃ i, MultisigInput.create id ix (p :: pubs) 2 = .ok i ∧
      MultisigInput.canSign i [k, k] = .ok true := by
  obtain ⟨p', hp', hval, _⟩ := good_public k hk
  rw [hp] at hp'
  cases hp'
  obtain ⟨i, r, h1, h2, h3⟩ := C42_multisig_partial id ix Input.finalSeqNumber (p :: pubs) 2 (by
    intro q hq
    rcases List.mem_cons.1 hq with rfl | hq
    · exact hval
    · exact hv q hq) (by omega) (by simp) (by simp; omega) [k, k] (by simp [hk])
  refine ⟨i, h1, ?_⟩
  rw [h2]
  have : r = true := h3.2 ⟨rfl, by simp [hn, hp]⟩
  rw [this]

/-- C42 is false of the code: a key of the test network cannot sign for its own public key. -/
theorem C42_testnet_refuted (id : Text) (ix : Int) (k : PrivateKey) (p : PublicKey) (hk : k.Good)
    (hn : k.network = .testnet) (hp : k.toPublicKey = .ok p) : ∃ i, MultisigInput.create id ix [p] 1 = .ok i ∧
      MultisigInput.canSign i [k] = .ok false := by
  obtain ⟨p', hp', hval, _⟩ := good_public k hk
  rw [hp] at hp'
  cases hp'
  obtain ⟨i, r, h1, h2, h3⟩ := C42_multisig_partial id ix Input.finalSeqNumber [p] 1 (by simpa using hval)
    (by omega) (by simp) (by simp) [k] (by simpa using hk)
  refine ⟨i, h1, ?_⟩
  rw [h2]
  cases r with
  | false => rfl
  | true =>
    have := (h3.1 rfl).2 k (by simp)
    rw [hn] at this
    exact absurd this.1 (by decide)

/-- Keys that meet the hypotheses of C42. -/
example : (PrivateKey.mk 5 .livenet true).Good ∧ keyG.Valid := ⟨⟨by decide, by decide⟩,
  by unfold PublicKey.Valid OnSecp Spec.reduced; decide +kernel⟩

/-! ## C43 outputs -/

/-- C43. `AddressOutput` pays to the address's hash, by the pay-to-pubkey-hash script. -/
theorem C43_address (v : Int) (a : Address) (ha : a.phash.length = 20) : ∃ o, AddressOutput.create v a = .ok o ∧
    o.cls = .address ∧ o.amount = v ∧ o.script.toBytes = .ok (118 :: 169 :: 20 :: (a.phash ++ [136, 172])) ∧
    Output.create v o.script = .ok o := by
  obtain ⟨s, h1, hc, hcl, hb, _⟩ := C32_pubkey_out a ha
  refine ⟨⟨.address, v, s⟩, by unfold AddressOutput.create; rw [h1], rfl, rfl, hb, ?_⟩
  obtain ⟨c, is⟩ := s
  cases hc
  simp only [Output.create, Script.create, hcl]

/-- C43 is false of the code for addresses of scripts: they also get the pay-to-pubkey-hash script. -/
theorem C43_script_address_refuted (v : Int) (a : Address) (ha : a.phash.length = 20) (_ht : a.type = .script) :
    ∃ o, AddressOutput.create v a = .ok o ∧ o.script.toBytes ≠ .ok (169 :: 20 :: (a.phash ++ [135])) := by
  obtain ⟨o, h, _, _, hb, _⟩ := C43_address v a ha
  refine ⟨o, h, ?_⟩
  rw [hb]
  simp

/-- C43. `ScriptOutput` is pay-to-script-hash of the redeem script; it exists iff the redeem script can be serialised. -/
theorem C43_script (H : Hashes) (v : Int) (r : Script) :
    (∀ e, r.toBytes = .error e → ScriptOutput.create H v r = .error e) ∧
    (∀ rb, r.toBytes = .ok rb → ∃ o, ScriptOutput.create H v r = .ok o ∧ o.cls = .script ∧ o.amount = v ∧
      o.script.toBytes = .ok (169 :: 20 :: (H.ripemd160 (H.sha256 rb) ++ [135])) ∧ Output.create v o.script = .ok o) := by
  constructor
  · intro e he
    simp only [ScriptOutput.create, PayToScriptOut.create, Script.toHash, he]
    rfl
  · intro rb hrb
    obtain ⟨s, h1, hc, hcl, hb, _⟩ := C32_script_out H r rb hrb
    refine ⟨⟨.script, v, s⟩, by unfold ScriptOutput.create; rw [h1], rfl, rfl, hb, ?_⟩
    obtain ⟨c, is⟩ := s
    cases hc
    simp only [Output.create, Script.create, hcl]

/-- C43, part that holds for `MultisigOutput`: it carries the redeem script itself. Missing: its hash. -/
theorem C43_multisig_partial (v : Int) (ks : List PublicKey) (m : Nat) (hk : ∀ k ∈ ks, k.Valid) (hm : m ≤ 16)
    (h2 : ks.length ≤ 16) : ∃ s o bs, RedeemMultisig.create ks m = .ok s ∧ MultisigOutput.create v ks m = .ok o ∧
      o.cls = .multisig ∧ o.amount = v ∧ o.script = s ∧
      List.Forall₂ (fun k b => k.toBytes = .ok b ∧ b.length = if k.compressed then 33 else 65) ks bs ∧
      s.toBytes = .ok (smallByte m :: ((bs.flatMap fun b => byte b.length :: b) ++ [smallByte ks.length, 174])) := by
  obtain ⟨s, bs, h1, _, hf, hb⟩ := C41_redeem_bytes ks m hk hm h2
  exact ⟨s, ⟨.multisig, v, s⟩, bs, h1, by unfold MultisigOutput.create; rw [h1], rfl, rfl, rfl, hf, hb⟩

/-- C43 is false of the code: no `MultisigOutput` is a pay-to-script-hash output. -/
theorem C43_multisig_refuted (H : Hashes) (v : Int) (ks : List PublicKey) (m : Nat) (hk : ∀ k ∈ ks, k.Valid)
    (hm : m ≤ 16) (h2 : ks.length ≤ 16) : ∃ s o p rb b, RedeemMultisig.create ks m = .ok s ∧
      MultisigOutput.create v ks m = .ok o ∧ s.toBytes = .ok rb ∧ PayToScriptOut.create H s = .ok p ∧
      p.toBytes = .ok b ∧ b = 169 :: 20 :: (H.ripemd160 (H.sha256 rb) ++ [135]) ∧ o.script.toBytes ≠ .ok b := by
  obtain ⟨s, o, bs, h1, ho, _, _, rfl, _, hb⟩ := C43_multisig_partial v ks m hk hm h2
  obtain ⟨p, hp, _, _, hpb, _⟩ := C32_script_out H _ _ hb
  refine ⟨_, o, p, _, _, h1, ho, hb, hp, hpb, rfl, ?_⟩
  rw [hb]
  intro h
  have h := List.cons.inj (Except.ok.inj h)
  have : ∀ m : Fin 17, smallByte m.val ≠ 169 := by decide +kernel
  exact this ⟨m, by omega⟩ h.1

/-- C43. `DataOutput` refuses more than 80 bytes. -/
theorem C43_data_limit (d : Data) (h : 80 < d.val.length) : DataOutput.create d = .error .outTooMuchData := by
  unfold DataOutput.create
  rw [if_pos h]

/-- C43, part that holds: 1 to 80 bytes of `str` are carried, with amount 0, and come back; up to 75 bytes they follow
OP_RETURN in one push.  Missing: no bytes, `bytearray`s, and the bytes of longer outputs (see the refutations). -/
theorem C43_data_partial (b : Bytes) (h1 : 1 ≤ b.length) (h2 : b.length ≤ 80) : ∃ o, DataOutput.create ⟨.str, b⟩ = .ok o ∧
    o.cls = .data ∧ o.amount = 0 ∧ o.script.cls = .opReturnOut ∧ OpReturnOut.getData o.script = .ok (some ⟨.str, b⟩) ∧
    Output.create 0 o.script = .ok o ∧
    (b.length ≤ 75 → o.script.toBytes = .ok (106 :: byte b.length :: b)) ∧
    (75 < b.length → o.script.toBytes = .error .typeError) := by
  obtain ⟨s, hs, hc, hcl, hg⟩ := C32_op_return b h1 (by omega)
  refine ⟨⟨.data, 0, s⟩, ?_, rfl, rfl, hc, hg, ?_, fun h => ?_, fun h => ?_⟩
  · unfold DataOutput.create
    rw [if_neg (by simp only; omega), hs]
  · obtain ⟨c, is⟩ := s
    cases hc
    simp only [Output.create, Script.create, hcl]
  · obtain ⟨is, his, hby⟩ := schematic_short [.opcode (.num 106), .bytes ⟨.str, b⟩] (by
      intro x hx
      simp only [List.mem_cons, List.not_mem_nil, or_false] at hx
      rcases hx with rfl | rfl
      · show pushKind _ = .plain; decide
      · exact ⟨rfl, h1, h⟩)
    have := (ofSchematic_ok _ _ _ hs).2
    rw [his] at this
    cases this
    show Script.bytesOf _ = _
    rw [hby]
    simp only [List.flatMap_cons, List.flatMap_nil, List.append_nil, SchemItem.rendered, List.cons_append, List.nil_append]
    rfl
  · obtain ⟨hw, hp⟩ := ofSchematic_simple _ _ _ (by
      intro x hx
      simp only [List.mem_cons, List.not_mem_nil, or_false] at hx
      rcases hx with rfl | rfl <;> trivial) hs
    rcases bytesOf_spec s.instructions hw with ⟨_, he⟩ | ⟨hn, _⟩
    · exact he
    · exact absurd (hp.2 ⟨⟨.str, b⟩, by simp, h⟩) hn

/-- C43 is false of the code: no data, and `bytearray`s, are refused; 76 to 80 bytes give an output that cannot be
serialised. -/
theorem C43_data_refuted :
    DataOutput.create ⟨.str, []⟩ = .error .opInvalidConstPushLength ∧
    (∀ b : Bytes, b.length ≤ 80 → DataOutput.create ⟨.bytearray, b⟩ = .error .typeError) ∧
    (∃ b o, b.length = 80 ∧ DataOutput.create ⟨.str, b⟩ = .ok o ∧ o.toBytes = .error .typeError) := by
  refine ⟨by decide +kernel, fun b hb => ?_, ?_⟩
  · unfold DataOutput.create
    rw [if_neg (by simp only; omega)]
    rfl
  · obtain ⟨o, ho, _, _, _, _, _, _, h⟩ := C43_data_partial (List.replicate 80 7) (by simp) (by simp)
    refine ⟨_, o, by simp, ho, ?_⟩
    unfold Output.toBytes
    rw [h (by simp)]

example : (DataOutput.create ⟨.str, [7, 8, 9]⟩).map (·.toBytes) = .ok (.ok [0, 0, 0, 0, 0, 0, 0, 0, 5, 106, 3, 7, 8, 9]) := by
  decide +kernel

example : (AddressOutput.create 258 ⟨List.replicate 20 7, .livenet, .script⟩).map (·.toBytes) =
    .ok (.ok ([2, 1, 0, 0, 0, 0, 0, 0, 25, 118, 169, 20] ++ List.replicate 20 7 ++ [136, 172])) := by decide +kernel

end Bitforge
