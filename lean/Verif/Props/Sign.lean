import Verif.RealHashes
import Verif.Proofs.Sign

/-! # C37–C43: signing, and the constructors of inputs and outputs -/

namespace Bitforge
open Spec
open Transaction (atIndex pyIndex)

/-! ## C37 what signing changes -/

/-- C37. Signing keeps version, lock time, outputs, the number of inputs and every input but the one at the index; that
one keeps its outpoint and sequence number, and is what its own `sign` returned for the payload. -/
theorem C37_frame (H : Hashes) (S : Signer) (t u : Transaction) (ks : List PrivateKey) (i st : Int)
    (h : t.sign H S ks i st = .ok u) :
    u.version = t.version ∧ u.lockTime = t.lockTime ∧ u.outputs = t.outputs ∧ u.inputs.length = t.inputs.length ∧
    (∀ n : Nat, (n : Int) ≠ i → u.inputs[n]? = t.inputs[n]?) ∧
    (∀ n : Nat, (n : Int) = i → ∃ x y p, t.inputs[n]? = some x ∧ u.inputs[n]? = some y ∧ t.payload H i st = .ok p ∧
      x.sign S ks p st = .ok y ∧ y.txId = x.txId ∧ y.txoIndex = x.txoIndex ∧ y.seqNumber = x.seqNumber ∧
      y.cls = .generic) := by
  obtain ⟨p, x, y, hp, hx, hy, rfl⟩ := (sign_ok_iff _ _ _ _ _ _ _).1 h
  refine ⟨rfl, rfl, rfl, atIndex_length _ _ _ _ _, ?_, ?_⟩
  · intro n hn
    simp only []
    rw [atIndex_get]
    have : ¬ ((0 + n : Nat) : Int) = i := by simpa using hn
    simp only [if_neg this, Option.map_id_fun', id]
  · intro n hn
    obtain ⟨h0, hx'⟩ := (pyIndex_ok_iff _ _ _).1 hx
    have e : (resolve t.inputs.length i).toNat = n := by unfold resolve; rw [if_neg (by omega)]; omega
    rw [e] at hx'
    have e2 : ((0 + n : Nat) : Int) = i := by simpa using hn
    obtain ⟨_, hr⟩ := input_sign_ok hy
    refine ⟨x, y, p, hx', ?_, hp, hy, ?_⟩
    · simp only []
      rw [atIndex_get, hx']
      simp only [Option.map_some, if_pos e2]
    · rw [hr]; exact ⟨rfl, rfl, rfl, rfl⟩

/-- C37. With a negative index nothing is changed at all. -/
theorem C37_negative (H : Hashes) (S : Signer) (t u : Transaction) (ks : List PrivateKey) (i st : Int) (hi : i < 0)
    (h : t.sign H S ks i st = .ok u) : u = t := by
  obtain ⟨p, x, y, _, _, _, rfl⟩ := (sign_ok_iff _ _ _ _ _ _ _).1 h
  rw [atIndex_negative _ _ hi]

/-- C37. Signing an AddressInput with one key succeeds: the transaction is in range, no script that is serialised uses
PUSHDATA, and the signer returns a byte string shorter than 4 GiB. -/
theorem C37_address_succeeds (H : Hashes) (S : Signer) (t : Transaction) (k : PrivateKey) (n : Nat) (st : Nat)
    (x : Input) (sig : Bytes) (p : Bytes) (ht : t.InRange) (hx : t.inputs[n]? = some x) (hc : x.cls = .address)
    (hk : k.Good) (hst : st < 256) (hp : t.payload H n st = .ok p) (hs : S 0 k p = .ok sig)
    (hl : sig.length + 1 < 2 ^ 32) : ∃ u y, t.sign H S [k] n st = .ok u ∧ u.inputs[n]? = some y ∧
      y.script.cls = .payToPubkeyIn ∧ PayToPubkeyIn.getSignature y.script = .ok (some ⟨.str, sig ++ [byte st]⟩) := by
  obtain ⟨pk, hpk, hv, _, _⟩ := good_public k hk
  obtain ⟨s, hcs, hcl, _, _, hg, _⟩ := C32_pubkey_in pk (sig ++ [byte st]) hv (by simp) (by simpa using hl)
  have hsig : Input.signature S 0 k p st = .ok ⟨.str, sig ++ [byte st]⟩ := by
    unfold Input.signature chrByte
    rw [hs]
    simp only []
    rw [if_pos (by omega), Int.toNat_natCast]
  have hxs : x.sign S [k] p st = .ok (x.replaceScript s) := by
    unfold Input.sign
    rw [hc]
    simp only [Input.signAddress, hpk, hsig, hcs]
  have hlt := (List.getElem?_eq_some_iff.1 hx).1
  have hpy : pyIndex t.inputs (n : Int) = .ok x := by
    rw [pyIndex_ok_iff]
    have e : resolve t.inputs.length (n : Int) = n := by unfold resolve; rw [if_neg (by omega)]
    rw [e, Int.toNat_natCast]
    exact ⟨by omega, hx⟩
  refine ⟨_, x.replaceScript s, (sign_ok_iff _ _ _ _ _ _ _).2 ⟨p, x, _, hp, hpy, hxs, rfl⟩, ?_, hcl, hg⟩
  simp only []
  rw [atIndex_get, hx]
  simp

/-! ## C38 the order of signing -/

/-- C38. Signing two different inputs commutes, whatever the two signers do: each order succeeds iff the other does,
with the same result. -/
theorem C38_order (H : Hashes) (S S' : Signer) (t u : Transaction) (ks ks' : List PrivateKey) (i j st st' : Int)
    (hij : resolve t.inputs.length i ≠ resolve t.inputs.length j) :
    (∃ v, t.sign H S ks i st = .ok v ∧ v.sign H S' ks' j st' = .ok u) ↔
    (∃ v, t.sign H S' ks' j st' = .ok v ∧ v.sign H S ks i st = .ok u) := by
  have key : ∀ (S S' : Signer) (ks ks' : List PrivateKey) (i j st st' : Int),
      resolve t.inputs.length i ≠ resolve t.inputs.length j →
      (∃ v, t.sign H S ks i st = .ok v ∧ v.sign H S' ks' j st' = .ok u) →
      (∃ v, t.sign H S' ks' j st' = .ok v ∧ v.sign H S ks i st = .ok u) := by
    rintro S S' ks ks' i j st st' hij ⟨v, h1, h2⟩
    obtain ⟨p, x, y, hp, hx, hy, rfl⟩ := (sign_ok_iff _ _ _ _ _ _ _).1 h1
    obtain ⟨p', x', y', hp', hx', hy', rfl⟩ := (sign_ok_iff _ _ _ _ _ _ _).1 h2
    obtain ⟨e1, e2⟩ := payload_other H t i j st' x y hx (input_sign_ok hy).2 hij
    rw [e1] at hp'
    rw [e2] at hx'
    obtain ⟨f1, f2⟩ := payload_other H t j i st x' y' hx' (input_sign_ok hy').2 hij.symm
    refine ⟨_, (sign_ok_iff _ _ _ _ _ _ _).2 ⟨p', x', y', hp', hx', hy', rfl⟩,
      (sign_ok_iff _ _ _ _ _ _ _).2 ⟨p, x, y, ?_, ?_, hy, ?_⟩⟩
    · rw [f1]; exact hp
    · rw [f2]; exact hx
    · simp only [Transaction.mk.injEq, true_and, and_true]
      exact atIndex_comm y y' i j (resolve_ne hij) _
  exact ⟨key S S' ks ks' i j st st' hij, key S' S ks' ks j i st' st hij.symm⟩

/-- C38, for indices counted from the start. -/
theorem C38_order_nonneg (H : Hashes) (S S' : Signer) (t u : Transaction) (ks ks' : List PrivateKey) (i j : Nat)
    (st st' : Int) (hij : i ≠ j) :
    (∃ v, t.sign H S ks i st = .ok v ∧ v.sign H S' ks' j st' = .ok u) ↔
    (∃ v, t.sign H S' ks' j st' = .ok v ∧ v.sign H S ks i st = .ok u) := by
  apply C38_order
  unfold resolve
  rw [if_neg (by omega), if_neg (by omega)]
  exact_mod_cast hij

/-! ## C39 the payload -/

/-- C39. For an in-range transaction and a position, the payload is the double SHA-256 of the wire format of the
transaction with the other input scripts emptied, followed by the signature type on 4 bytes — unless a script that has to
be serialised uses PUSHDATA, when there is no payload. -/
theorem C39_payload (H : Hashes) (t : Transaction) (ht : t.InRange) : ∃ w : WireTx, t.Shows w ∧ w.Fits ∧
    ∀ (n : Nat) (st : Int),
      (t.BlocksPayload n → t.payload H n st = .error .typeError) ∧
      (¬ t.BlocksPayload n → t.payload H n st = .ok (H.sha256 (H.sha256 ((w.blank n).bytes ++ le 4 st.toNat)))) := by
  obtain ⟨w, hs, hw⟩ := tx_shows t ht
  refine ⟨w, hs, hw, fun n st => ⟨fun hp => ?_, fun hp => ?_⟩⟩
  · rw [payload_eq H t w ht.1 hs n st, if_pos hp]
  · rw [payload_eq H t w ht.1 hs n st, if_neg hp]

/-- C39. This payload is what the signer is given, and the signer's answer followed by the signature type is what goes
into the script. -/
theorem C39_signed (H : Hashes) (S : Signer) (t u : Transaction) (k : PrivateKey) (n : Nat) (st : Int) (x : Input)
    (hx : t.inputs[n]? = some x) (hc : x.cls = .address) (hk : k.Good)
    (h : t.sign H S [k] n st = .ok u) : ∃ p sig y pk, t.payload H n st = .ok p ∧ S 0 k p = .ok sig ∧
      (0 ≤ st ∧ st < 256) ∧ u.inputs[n]? = some y ∧ k.toPublicKey = .ok pk ∧
      PayToPubkeyIn.getSignature y.script = .ok (some ⟨.str, sig ++ [byte st.toNat]⟩) ∧
      PayToPubkeyIn.getPublicKey y.script = .ok ⟨pk.pair, .livenet, pk.compressed⟩ := by
  obtain ⟨_, _, _, _, _, hn⟩ := C37_frame H S t u [k] n st h
  obtain ⟨x', y, p, hx', hy, hp, hs, _⟩ := hn n rfl
  rw [hx] at hx'
  cases hx'
  unfold Input.sign at hs
  rw [hc] at hs
  simp only [Input.signAddress] at hs
  obtain ⟨pk, hpk, hv, _, _⟩ := good_public k hk
  rw [hpk] at hs
  simp only [] at hs
  split at hs
  · cases hs
  · next d hd =>
    obtain ⟨sig, c, hsig, h0, h1, rfl, rfl⟩ := signature_ok hd
    split at hs
    · cases hs
    · next sc hsc =>
      cases hs
      have hlen : (sig ++ [byte st.toNat]).length < 2 ^ 32 := by
        unfold PayToPubkeyIn.create at hsc
        split at hsc
        · cases hsc
        · obtain ⟨_, hto⟩ := ofSchematic_ok _ _ _ hsc
          obtain ⟨i, js, hi, _⟩ := (toInstructions_cons _ _ _).1 hto
          exact (instruction_push _ i hi).2.2
      obtain ⟨s', hcs, _, _, _, hg, hg'⟩ := C32_pubkey_in pk _ hv (by simp) hlen
      rw [hsc] at hcs
      cases hcs
      exact ⟨p, sig, _, pk, hp, hsig, ⟨h0, h1⟩, hy, hpk, hg, hg'⟩

/-- C39. The payload does not depend on the scripts (or classes) of the other inputs. -/
theorem C39_independent (H : Hashes) (t u : Transaction) (i st : Int) (hv : t.version = u.version)
    (ho : t.outputs = u.outputs) (hl : t.lockTime = u.lockTime)
    (hi : List.Forall₂ (fun x y : Input => x.txId = y.txId ∧ x.txoIndex = y.txoIndex ∧ x.seqNumber = y.seqNumber)
      t.inputs u.inputs)
    (hs : ∀ n : Nat, (n : Int) = i → t.inputs[n]? = u.inputs[n]?) : t.payload H i st = u.payload H i st := by
  have e : atIndex (fun x => x) Input.removeScript i 0 t.inputs = atIndex (fun x => x) Input.removeScript i 0 u.inputs := by
    apply List.ext_getElem?
    intro n
    rw [atIndex_get, atIndex_get]
    by_cases hn : ((0 + n : Nat) : Int) = i
    · rw [hs n (by simpa using hn)]
    · simp only [if_neg hn]
      obtain ⟨hlen, hget⟩ := List.forall₂_iff_get.1 hi
      by_cases hlt : n < t.inputs.length
      · have hlt' : n < u.inputs.length := hlen ▸ hlt
        rw [List.getElem?_eq_getElem hlt, List.getElem?_eq_getElem hlt']
        obtain ⟨a, b, c⟩ := hget n hlt hlt'
        simp only [List.get_eq_getElem] at a b c
        simp only [Option.map_some, Option.some.injEq, Input.removeScript, Input.replaceScript, a, b, c]
      · rw [List.getElem?_eq_none (by omega), List.getElem?_eq_none (by omega)]
  unfold Transaction.payload Transaction.replaceInputs
  rw [e, hv, ho, hl]

/-- C39. Equal pre-images come from transactions that agree on everything but the other inputs' scripts, with equal
signature types; if the script that is signed is not empty, the positions and the scripts agree. -/
theorem C39_commits (w w' : WireTx) (hw : w.Fits) (hw' : w'.Fits) (n n' a a' : Nat) (ha : a < 2 ^ 32) (ha' : a' < 2 ^ 32)
    (h : (w.blank n).bytes ++ le 4 a = (w'.blank n').bytes ++ le 4 a') :
    a = a' ∧ w.version = w'.version ∧ w.outputs = w'.outputs ∧ w.lockTime = w'.lockTime ∧
    (∀ k : Nat, w.inputs[k]?.map (fun x => (x.txid, x.index, x.sequence)) =
      w'.inputs[k]?.map (fun x => (x.txid, x.index, x.sequence))) ∧
    ∀ x, w.inputs[n]? = some x → x.script ≠ [] → n = n' ∧ w'.inputs[n]? = some x := by
  obtain ⟨hb, hl⟩ := wireTx_append_inj h (fits_blank hw n) (fits_blank hw' n')
  obtain ⟨rfl, _⟩ := le_append_inj (a := []) (b := []) (by simpa using hl) (by norm_num; omega) (by norm_num; omega)
  simp only [WireTx.blank, WireTx.mk.injEq] at hb
  obtain ⟨h1, h2, h3, h4⟩ := hb
  have hk : ∀ k : Nat, w.inputs[k]?.map (fun x => if k = n then x else { x with script := [] }) =
      w'.inputs[k]?.map (fun x => if k = n' then x else { x with script := [] }) := by
    intro k
    have := congrArg (fun l => l[k]?) h2
    simpa [List.getElem?_mapIdx] using this
  refine ⟨rfl, h1, h3, h4, fun k => ?_, fun x hx hne => ?_⟩
  · have := congrArg (Option.map fun x : WireIn => (x.txid, x.index, x.sequence)) (hk k)
    rw [Option.map_map, Option.map_map] at this
    convert this using 2
    · funext x; simp only [Function.comp]; split <;> rfl
    · funext x; simp only [Function.comp]; split <;> rfl
  · have := hk n
    rw [hx] at this
    simp only [Option.map_some, if_true] at this
    cases hx' : w'.inputs[n]? with
    | none => rw [hx'] at this; cases this
    | some x' =>
      rw [hx'] at this
      simp only [Option.map_some, Option.some.injEq] at this
      by_cases hn : n = n'
      · rw [if_pos hn] at this; exact ⟨hn, by rw [this]⟩
      · rw [if_neg hn] at this
        exact absurd (by rw [this]) hne

/-- C39. The script that is signed for an AddressInput is the pay-to-pubkey-hash script of the address. -/
theorem C39_script_code (id : Text) (ix : Int) (a : Address) (ha : a.phash.length = 20) (seq : Int) :
    ∃ i, AddressInput.create id ix a seq = .ok i ∧ i.cls = .address ∧ i.txId = id ∧ i.txoIndex = ix ∧ i.seqNumber = seq ∧
      i.script.toBytes = .ok (118 :: 169 :: 20 :: (a.phash ++ [136, 172])) := by
  obtain ⟨s, h1, _, _, h2, _⟩ := C32_pubkey_out a ha
  exact ⟨_, by unfold AddressInput.create; rw [h1], rfl, rfl, rfl, rfl, h2⟩

/-! ## C40 what cannot be signed -/

/-- C40. An index outside the transaction raises (IndexError, if the payload can be made). -/
theorem C40_out_of_range (H : Hashes) (S : Signer) (t : Transaction) (ks : List PrivateKey) (i st : Int)
    (hi : ¬ (-(t.inputs.length : Int) ≤ i ∧ i < t.inputs.length)) :
    ∃ e, t.sign H S ks i st = .error e ∧ (∀ p, t.payload H i st = .ok p → e = .indexError) := by
  unfold Transaction.sign
  cases hp : t.payload H i st with
  | error e => exact ⟨e, rfl, by simp⟩
  | ok p =>
    simp only []
    rw [pyIndex_error _ _ hi]
    exact ⟨_, rfl, fun _ _ => rfl⟩

/-- C40. A plain Input is never signed. -/
theorem C40_plain (H : Hashes) (S : Signer) (t : Transaction) (ks : List PrivateKey) (n : Nat) (st : Int) (x : Input)
    (hx : t.inputs[n]? = some x) (hc : x.cls = .generic) :
    ∃ e, t.sign H S ks n st = .error e ∧ (∀ p, t.payload H n st = .ok p → e = .inUnknownSignatureMethod) := by
  have hpy : pyIndex t.inputs (n : Int) = .ok x := by
    rw [pyIndex_ok_iff]
    have e : resolve t.inputs.length (n : Int) = n := by unfold resolve; rw [if_neg (by omega)]
    rw [e, Int.toNat_natCast]
    exact ⟨by omega, hx⟩
  unfold Transaction.sign
  cases hp : t.payload H n st with
  | error e => exact ⟨e, rfl, by simp⟩
  | ok p =>
    simp only [hpy]
    unfold Input.sign
    rw [hc]
    exact ⟨_, rfl, fun _ _ => rfl⟩

/-- C40. An AddressInput is signed with exactly one key. -/
theorem C40_address_keys (H : Hashes) (S : Signer) (t : Transaction) (ks : List PrivateKey) (n : Nat) (st : Int)
    (x : Input) (hx : t.inputs[n]? = some x) (hc : x.cls = .address) (hk : ks.length ≠ 1) :
    ∃ e, t.sign H S ks n st = .error e ∧ (∀ p, t.payload H n st = .ok p → e = .inInvalidSignatureCount) := by
  have hpy : pyIndex t.inputs (n : Int) = .ok x := by
    rw [pyIndex_ok_iff]
    have e : resolve t.inputs.length (n : Int) = n := by unfold resolve; rw [if_neg (by omega)]
    rw [e, Int.toNat_natCast]
    exact ⟨by omega, hx⟩
  unfold Transaction.sign
  cases hp : t.payload H n st with
  | error e => exact ⟨e, rfl, by simp⟩
  | ok p =>
    simp only [hpy]
    unfold Input.sign
    rw [hc]
    simp only [Input.signAddress]
    match ks, hk with
    | [], _ => exact ⟨_, rfl, fun _ _ => rfl⟩
    | [k], hk => simp at hk
    | _ :: _ :: _, _ => exact ⟨_, rfl, fun _ _ => rfl⟩

/-- C40. No input of a parsed transaction can be signed. -/
theorem C40_parsed (H : Hashes) (S : Signer) (b : Bytes) (t : Transaction) (ks : List PrivateKey) (i st : Int)
    (h : Transaction.fromBytes b = .ok t) : ∃ e, t.sign H S ks i st = .error e := by
  cases hs : t.sign H S ks i st with
  | error e => exact ⟨e, rfl⟩
  | ok u =>
    exfalso
    obtain ⟨p, x, y, _, hx, hy, _⟩ := (sign_ok_iff _ _ _ _ _ _ _).1 hs
    obtain ⟨_, _, _, _, hg⟩ := C36_reserialise_partial b t h
    obtain ⟨_, hx⟩ := (pyIndex_ok_iff _ _ _).1 hx
    exact (input_sign_ok hy).1 (hg x (List.mem_of_getElem? hx))

/-- C40. A signed input cannot be signed again. -/
theorem C40_signed_twice (H : Hashes) (S S' : Signer) (t u : Transaction) (ks ks' : List PrivateKey) (n : Nat)
    (st st' : Int) (h : t.sign H S ks n st = .ok u) : ∃ e, u.sign H S' ks' n st' = .error e := by
  obtain ⟨_, _, _, _, _, hn⟩ := C37_frame H S t u ks n st h
  obtain ⟨_, y, _, _, hy, _, _, _, _, _, hc⟩ := hn n rfl
  obtain ⟨e, he, _⟩ := C40_plain H S' u ks' n st' y hy hc
  exact ⟨e, he⟩

/-- C40, part that holds: with an index from 0 up, a transaction that is returned has that input replaced by a plain
Input whose script is a PayToPubkeyIn or PayToScriptIn.  Missing: negative indices (see the refutation). -/
theorem C40_returns_signed_partial (H : Hashes) (S : Signer) (t u : Transaction) (ks : List PrivateKey) (i st : Int)
    (hi : 0 ≤ i) (h : t.sign H S ks i st = .ok u) : ∃ x y, t.inputs[i.toNat]? = some x ∧ u.inputs[i.toNat]? = some y ∧
      x.cls ≠ .generic ∧ y.cls = .generic ∧
      (x.cls = .address → y.script.cls = .payToPubkeyIn) ∧ (x.cls ≠ .address → y.script.cls = .payToScriptIn) := by
  obtain ⟨_, _, _, _, _, hn⟩ := C37_frame H S t u ks i st h
  obtain ⟨x, y, p, hx, hy, _, hs, _, _, _, hc⟩ := hn i.toNat (by omega)
  refine ⟨x, y, hx, hy, (input_sign_ok hs).1, hc, fun ha => ?_, fun ha => ?_⟩
  · unfold Input.sign at hs
    rw [ha] at hs
    simp only [Input.signAddress] at hs
    split at hs
    · split at hs
      · cases hs
      · split at hs
        · cases hs
        · split at hs
          · cases hs
          · next s hcs =>
            cases hs
            unfold PayToPubkeyIn.create at hcs
            split at hcs
            · cases hcs
            · exact (ofSchematic_ok _ _ _ hcs).1
    · cases hs
  · have key : x.signScript S ks p st = .ok y → y.script.cls = .payToScriptIn := by
      intro hs
      unfold Input.signScript at hs
      split at hs
      · cases hs
      · split at hs
        · cases hs
        · next s hcs =>
          cases hs
          unfold PayToScriptIn.create at hcs
          split at hcs
          · cases hcs
          · exact (ofSchematic_ok _ _ _ hcs).1
    unfold Input.sign at hs
    cases hcl : x.cls <;> rw [hcl] at hs ha
    · cases hs
    · exact absurd rfl ha
    · exact key hs
    · exact key hs

/-- A transaction with one ScriptInput. -/
def scriptTx : Transaction := ⟨[ScriptInput.create (List.replicate 64 'a') 0 ⟨.generic, [⟨.num 81, none⟩]⟩],
  [sampleOutput], 0, 1⟩

/-- C40 is false of the code: with index -1 the last input is signed, and the transaction is returned unsigned. -/
theorem C40_negative_refuted : ∃ (S : Signer) (t : Transaction) (ks : List PrivateKey),
    t.sign .real S ks (-1) = .ok t ∧ ks ≠ [] ∧ ∃ x ∈ t.inputs, x.cls = .script :=
  ⟨fun _ _ _ => .ok [9, 9], scriptTx, [⟨1, .livenet, true⟩], by decide +kernel, by simp,
    ScriptInput.create (List.replicate 64 'a') 0 ⟨.generic, [⟨.num 81, none⟩]⟩, by decide +kernel, rfl⟩

/-- The same, signed by a signer that always returns 0909. -/
def scriptTxSigned : Transaction := ⟨[⟨.generic, List.replicate 64 'a', 0, ⟨.payToScriptIn, [⟨.num 0, none⟩,
  ⟨.num 3, some ⟨.str, [9, 9, 1]⟩⟩, ⟨.num 1, some ⟨.str, [81]⟩⟩]⟩, 0xFFFFFFFF⟩], [sampleOutput], 0, 1⟩

theorem script_tx : scriptTx.InRange := by
  refine ⟨⟨by decide, by decide, by decide, by decide⟩, by decide, ?_, ?_, by decide, by decide⟩
  · intro i hi
    rw [List.mem_singleton.1 hi]
    exact ⟨sample_input.1, by decide, sample_input.2.2.1, by decide⟩
  · intro o ho
    have : o = sampleOutput := by simpa [scriptTx] using ho
    rw [this]; exact sample_output

/-- C37, C40. -/
example : scriptTx.sign .toy (fun _ _ _ => .ok [9, 9]) [⟨1, .livenet, true⟩] 0 = .ok scriptTxSigned ∧
    scriptTxSigned ≠ scriptTx ∧ scriptTxSigned.inputs.map (·.script.toBytes) = [.ok [0, 3, 9, 9, 1, 1, 81]] := by
  decide +kernel

/-- A transaction with one AddressInput and one ScriptInput. -/
def addressTx : Transaction := ⟨[⟨.address, List.replicate 64 'a', 0, ⟨.payToPubkeyOut, [⟨.num 118, none⟩, ⟨.num 169, none⟩,
  ⟨.num 20, some ⟨.str, List.replicate 20 7⟩⟩, ⟨.num 136, none⟩, ⟨.num 172, none⟩]⟩, 0xFFFFFFFF⟩,
  ScriptInput.create (List.replicate 64 'a') 1 ⟨.generic, [⟨.num 81, none⟩]⟩], [sampleOutput], 0, 1⟩

theorem address_tx : addressTx.InRange := by
  refine ⟨⟨by decide, by decide, by decide, by decide⟩, by decide, ?_, ?_, by decide, by decide⟩
  · intro i hi
    simp only [addressTx, List.mem_cons, List.not_mem_nil, or_false] at hi
    rcases hi with rfl | rfl
    · refine ⟨sample_input.1, by decide, ?_, by decide⟩
      obtain ⟨b, hb⟩ := wellFormed_encodes ⟨.payToPubkeyOut, [⟨.num 118, none⟩, ⟨.num 169, none⟩,
        ⟨.num 20, some ⟨.str, List.replicate 20 7⟩⟩, ⟨.num 136, none⟩, ⟨.num 172, none⟩]⟩ (by unfold Script.WellFormed; decide)
      have h25 : b = [118, 169, 20] ++ List.replicate 20 7 ++ [136, 172] :=
        encodes_unique hb (.cons (b := [118]) (by decide) rfl (.cons (b := [169]) (by decide) rfl
          (.cons (b := 20 :: List.replicate 20 7) (by decide) rfl (.cons (b := [136]) (by decide) rfl
            (.cons (b := [172]) (by decide) rfl .nil)))))
      exact ⟨b, hb, by rw [h25]; decide⟩
    · exact ⟨sample_input.1, by decide, sample_input.2.2.1, by decide⟩
  · intro o ho
    have : o = sampleOutput := by simpa [addressTx] using ho
    rw [this]; exact sample_output

/-- C37, C39. The hypotheses of `C37_address_succeeds` can be met. -/
example : ∃ p u, addressTx.payload .toy 0 1 = .ok p ∧ p.length = 32 ∧
    addressTx.sign .toy (fun _ _ _ => .ok [9, 9]) [⟨1, .livenet, true⟩] 0 1 = .ok u := by
  obtain ⟨w, _, _, h⟩ := C39_payload .toy addressTx address_tx
  have hp := (h 0 1).2 (by
    rw [← hasPushData_blank]
    decide)
  obtain ⟨u, _, hu, _⟩ := C37_address_succeeds .toy (fun _ _ _ => .ok [9, 9]) addressTx ⟨1, .livenet, true⟩ 0 1 _ [9, 9] _
    address_tx rfl rfl ⟨by decide, by decide⟩ (by decide) hp rfl (by decide)
  exact ⟨_, u, hp, Hashes.toy.sha256_length _, hu⟩

/-- C38. Two inputs signed in both orders. -/
example : (do let u ← (⟨scriptTx.inputs ++ scriptTx.inputs, [sampleOutput], 0, 1⟩ : Transaction).sign .toy
                (fun _ _ m => .ok (m.take 3)) [⟨1, .livenet, true⟩] 0
              u.sign .toy (fun _ _ m => .ok (m.take 4)) [⟨2, .livenet, true⟩] 1) =
          (do let u ← (⟨scriptTx.inputs ++ scriptTx.inputs, [sampleOutput], 0, 1⟩ : Transaction).sign .toy
                (fun _ _ m => .ok (m.take 4)) [⟨2, .livenet, true⟩] 1
              u.sign .toy (fun _ _ m => .ok (m.take 3)) [⟨1, .livenet, true⟩] 0) := by decide +kernel

end Bitforge
