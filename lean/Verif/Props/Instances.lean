import Verif.Props.Owner
import Verif.Props.Replay
import Verif.Props.Locked
import Verif.Props.Multisig
import Verif.Props.Standard
import Verif.Props.Checks
import Verif.Props.Size
import Verif.Props.Request

/-! # Concrete spends and payments to which the theorems on transactions apply, with the real hash functions -/

namespace Bitforge
open Spec Transaction ExtEcdsa

theorem nonce_one : NoncesOk fun _ => 1 := fun _ => ⟨le_refl 1, by show 1 < secpN; decide⟩

/-- The first input of `pairTx`, signed by `oneKey` with the nonce one. -/
def pairSigned : Transaction :=
  { pairTx with inputs := [typeInput 0x3c33b8daea8a43533fe182d334f52a021b56d9fe97efc9a14088a320f73d3245 1, oneInput 1] }

theorem pair_signs : pairTx.sign .real (keySigner fun _ => 1) [oneKey] (0 : Nat) 1 = .ok pairSigned := by
  have hm : pairTx.payload .real 0 1 = .ok (encodeInt 0xc275525bf0ad87a6ea41203d666e1ef9d369ba0a196a4103a6688052b07b5bee true
      (some 32)) := by decide +kernel
  have hs : (oneInput 0).sign (keySigner fun _ => 1) [oneKey]
      (encodeInt 0xc275525bf0ad87a6ea41203d666e1ef9d369ba0a196a4103a6688052b07b5bee true (some 32)) 1 =
      .ok (typeInput 0x3c33b8daea8a43533fe182d334f52a021b56d9fe97efc9a14088a320f73d3245 1) := by decide +kernel
  exact sign_steps hm rfl hs (replaceInputs_ok _ _ pair_tx.1 (by simp [pairTx, atIndex]))

theorem pair_head : ∀ y, pairSigned.inputs[0]? = some y → y.script.wires.head? ≠ some (pushOf oneHash) := by
  intro y hy
  cases hy
  decide +kernel

/-- The output that `pairTx` spends. -/
theorem pair_output : ∃ o, AddressOutput.create 258 ⟨oneHash, .livenet, .publicKey⟩ = .ok o ∧
    o.script.toBytes = .ok (118 :: 169 :: 20 :: (oneHash ++ [136, 172])) := by
  obtain ⟨o, h1, _, _, h2, _⟩ := C43_address 258 ⟨oneHash, .livenet, .publicKey⟩ (by decide +kernel)
  exact ⟨o, h1, h2⟩

theorem pair_serialisable : Serialisable pairTx := by
  refine ⟨pair_tx, by unfold Transaction.HasPushData Script.HasPushData; decide +kernel, ?_⟩
  rintro (⟨x, hx, h⟩ | ⟨o, ho, h⟩)
  · simp only [pairTx, List.mem_cons, List.not_mem_nil, or_false] at hx
    rcases hx with rfl | rfl <;> exact absurd h.2.2 (by decide +kernel)
  · simp only [pairTx, List.mem_cons, List.not_mem_nil, or_false] at ho
    rcases ho with rfl | rfl <;> exact absurd h.1 (by decide +kernel)

/-- C83 applies to it, and C106, C98, C103, C112 and C114 to the result: the reference client accepts the input, also when
the signature is replaced by the other one. -/
theorem pair_spends : ∃ w, pairSigned.Shows w ∧ w.Fits ∧ pairSigned.toBytes = .ok w.bytes ∧
    ∀ flags, Ref.Spends .real flags w 0 (118 :: 169 :: 20 :: (oneHash ++ [136, 172])) := by
  obtain ⟨w, h1, h2, h3, _⟩ := serialisable_trip (sign_serialisable .real _ nonce_one pairTx _ oneKey (both_good _ (by simp)) 0 _
    pair_serialisable rfl rfl pair_signs).1
  exact ⟨w, h1, h2, h3, fun flags => C83_address .real _ nonce_one pairTx _ _ oneKey (both_good _ (by simp)) 0 _ 0 _
    ⟨oneHash, .livenet, .publicKey⟩ _ (by decide +kernel) one_create.1 one_create.2 pair_tx rfl pair_signs pair_head
    (.refl _) w h1 flags⟩

example : ∃ w w' : WireTx, w' ≠ w ∧ w'.bytes ≠ w.bytes ∧
    (∀ flags, Ref.Spends .real flags w 0 (118 :: 169 :: 20 :: (oneHash ++ [136, 172]))) ∧
    Ref.Spends .real 23 w' 0 (118 :: 169 :: 20 :: (oneHash ++ [136, 172])) ∧
    (∃ key sig rest, Leaves .real 23 w 0 (key :: sig :: rest) ∧ Hashes.real.ripemd160 (Hashes.real.sha256 key) = oneHash ∧
      Endorsed .real 23 w 0 (Ref.payToKey oneHash) [sig] sig key) := by
  obtain ⟨w, h1, h2, _, h4⟩ := pair_spends
  obtain ⟨o, ho, hb⟩ := pair_output
  obtain ⟨w', h5, h6, _, _, h7⟩ := C98_transaction_refuted .real _ nonce_one pairTx _ _ oneKey (both_good _ (by simp)) 0 _ 0 _
    ⟨oneHash, .livenet, .publicKey⟩ _ (by decide +kernel) one_create.1 one_create.2 pair_tx rfl pair_signs (.refl _) w h1 23
    (by decide)
  exact ⟨w, w', h5, (h6 h2).2, h4, h7, C106_address .real 23 258 ⟨oneHash, .livenet, .publicKey⟩ (by decide +kernel) o ho _ hb
    w 0 (h4 23)⟩

/-- Under the rules of nodes (`NodeRules`: 365 has them all) it has the form of `C98_form`, and whoever changes it with the same `r`
and type has the same input or a collision. -/
example : NodeRules 365 ∧ ∃ w, pairSigned.Shows w ∧ Ref.Spends .real 365 w 0 (118 :: 169 :: 20 :: (oneHash ++ [136, 172])) ∧
    (∃ x der t r s key, w.inputs[0]? = some x ∧ x.script = shortPush (der ++ [t]) ++ shortPush key ∧ SigText der r s ∧
      2 * s ≤ secpN ∧ Hashes.real.ripemd160 (Hashes.real.sha256 key) = oneHash ∧
      Endorsed .real 365 w 0 (Ref.payToKey oneHash) [der ++ [t]] (der ++ [t]) key) ∧
    ∃ y der r s pb, w.inputs[0]? = some y ∧ y.script = shortPush (der ++ [1]) ++ shortPush pb ∧ SigText der r s ∧
      ∀ (flags : Nat) (w' : WireTx), NodeRules flags → SameCore w w' →
        Ref.Spends .real flags w' 0 (118 :: 169 :: 20 :: (oneHash ++ [136, 172])) →
        ∃ y' der' t' r' s' pb', w'.inputs[0]? = some y' ∧ y'.script = shortPush (der' ++ [t']) ++ shortPush pb' ∧
          SigText der' r' s' ∧
          (t' = 1 → r' = r → (secp.p : Int) - secpN ≤ r → der' ++ [t'] ≠ oneHash → y' = y ∨ Collide160 .real pb' pb) := by
  obtain ⟨w, h1, _, _, h4⟩ := pair_spends
  have hf : NodeRules 365 := ⟨by decide, by decide, by decide, by decide⟩
  exact ⟨hf, w, h1, h4 365, C98_form .real 365 hf w 0 oneHash (by decide +kernel) (h4 365),
    C98_locked_partial .real _ nonce_one pairTx _ _ oneKey (both_good _ (by simp)) 0 _ 0 _
      ⟨oneHash, .livenet, .publicKey⟩ _ (by decide +kernel) one_create.1 one_create.2 pair_tx rfl pair_signs (.refl _) w h1⟩

/-- The sizes of C103. -/
example : ∃ b c, pairTx.toBytes = .ok b ∧ pairSigned.toBytes = .ok c ∧ b.length + 9 + oneKey.secSize ≤ c.length + 23 ∧
    c.length + 23 ≤ b.length + 72 + oneKey.secSize :=
  C103_address .real _ nonce_one pairTx _ oneKey (both_good _ (by simp)) 0 _ _ 0 ⟨oneHash, .livenet, .publicKey⟩
    (by decide +kernel) pair_serialisable rfl one_create.1 pair_signs

/-- Two of two: C84 and C94 apply, and C106 to the result. -/
theorem both_serialisable : Serialisable bothTx := by
  refine ⟨both_tx, by unfold Transaction.HasPushData Script.HasPushData; decide +kernel, ?_⟩
  rintro (⟨x, hx, h⟩ | ⟨o, ho, h⟩)
  · rw [List.mem_singleton.1 hx] at h
    exact absurd h.2.2 (by decide +kernel)
  · rw [List.mem_singleton.1 ho] at h
    exact absurd h.1 (by decide +kernel)

theorem both_keys : ∀ k ∈ [oneKey, twoKey], k.Good := fun k hk => by
  rcases List.mem_cons.1 hk with rfl | hk
  · exact both_good _ (List.mem_cons_of_mem _ List.mem_cons_self)
  · rw [List.mem_singleton.1 hk]
    exact both_good _ List.mem_cons_self

theorem both_spends : ∃ s o ob u w, RedeemMultisig.create [onePub, twoPub] 2 = .ok s ∧ ScriptOutput.create .real 258 s = .ok o ∧
    o.script.toBytes = .ok ob ∧ bothTx.sign .real (keySigner fun _ => 1) [oneKey, twoKey] (0 : Nat) = .ok u ∧
    u.toHex = .ok (hexText w.bytes) ∧ Ref.Spends .real 23 w 0 ob := by
  obtain ⟨h1, h2, h3, _⟩ := both_create
  obtain ⟨s, o, ob, hs, ho, hob, h⟩ := C94_spend_partial .real _ nonce_one bothTx [oneKey, twoKey]
    both_keys 0 _ 0 _ [onePub, twoPub] both_valid (.inr ⟨rfl, by simp [onePub, twoPub]⟩)
    ⟨_, .cons h2 (.cons h3 .nil), List.Sublist.refl _⟩ bothInput h1 both_serialisable rfl 258
  obtain ⟨u, hu⟩ := ok_of_toBool (e := bothTx.sign .real (keySigner fun _ => 1) [oneKey, twoKey] (0 : Nat)) (by decide +kernel)
  rcases h with h | ⟨u', w, h4, _, _, h5, _, h6⟩
  · rw [hu] at h
    cases h
  · exact ⟨s, o, ob, u', w, hs, ho, hob, h4, h5, h6 23 (by decide)⟩

example : ∃ w bs rb redeem rest, Leaves .real 23 w 0 (redeem :: rest) ∧
    ((∃ sigs d rest', rest = sigs.reverse ++ d :: rest' ∧ EndorsedBy .real 23 w 0 2 bs sigs) ∨ Collide160 .real redeem rb) := by
  obtain ⟨s, o, ob, u, w, hs, ho, hob, _, _, h⟩ := both_spends
  obtain ⟨bs, rb, redeem, rest, _, _, h1, h2⟩ := C106_multisig .real 23 (by decide) 258 [onePub, twoPub] 2 both_valid (by omega)
    (by simp) s hs o ho ob hob w 0 h
  exact ⟨w, bs, rb, redeem, rest, h1, h2⟩

/-- Money sent with `MultisigOutput` to the same keys, to which C94 applies. -/
example : ∃ u w ob, bothTx.sign .real (keySigner fun _ => 1) [oneKey, twoKey] (0 : Nat) 1 = .ok u ∧ u.Shows w ∧
    ∀ flags, ¬ Ref.Spends .real flags w 0 ob := by
  obtain ⟨s, bs, rb, o, _, _, _, _, _, ho, _, _, hob, _⟩ := C94_outputs .real 258 (by decide) [onePub, twoPub] 2 both_valid
    (by omega) (by simp)
  obtain ⟨u, hu⟩ := ok_of_toBool (e := bothTx.sign .real (keySigner fun _ => 1) [oneKey, twoKey] (0 : Nat) 1) (by decide +kernel)
  obtain ⟨w, hw⟩ := signs_shows (H := .real) (t := bothTx) (.step (.refl _) (Int.natCast_nonneg 0) hu (C74_signer _ nonce_one)
    both_keys) both_tx
  exact ⟨u, w, rb, hu, hw, C94_bare_refuted .real _ nonce_one bothTx u u [oneKey, twoKey] both_keys (by simp) 0 _ 0 _ 258
    [onePub, twoPub] both_valid (by simp) (by simp) bothInput o both_create.1 ho both_tx rfl hu (.refl _) w hw rb hob⟩

/-- A payment that succeeds: C92, C103, C112, C113 and C114 apply to it. -/
def payCoins : List Coin := [⟨List.replicate 64 'a', 0, oneKey⟩]
def payOuts : List (Int × Address) := [(10000, ⟨List.replicate 20 9, .livenet, .publicKey⟩), (700, ⟨oneHash, .livenet, .publicKey⟩)]

theorem pay_run : ∃ t, Payment.run .real (fun _ => keySigner fun _ => 1) payCoins payOuts = .ok t := ok_of_toBool (by decide +kernel)

theorem pay_coins : ∀ c ∈ payCoins, c.Ok := fun c hc => by
  rw [List.mem_singleton.1 hc]
  exact ⟨sample_input.1, ⟨by decide, by decide⟩, both_good _ (by simp)⟩

theorem pay_outs : ∀ p ∈ payOuts, PayOk p := fun p hp => by
  rcases List.mem_cons.1 hp with rfl | hp
  · exact ⟨by decide, rfl⟩
  · rw [List.mem_singleton.1 hp]
    exact ⟨by decide, by decide +kernel⟩

theorem pay_ok {P : WireTx → Prop}
    (h : Payment.run .real (fun _ => keySigner fun _ => 1) payCoins payOuts = .error .rsZeroError ∨
      ∃ w : WireTx, Payment.run .real (fun _ => keySigner fun _ => 1) payCoins payOuts = .ok (hexText w.bytes) ∧ P w) :
    ∃ w : WireTx, Payment.run .real (fun _ => keySigner fun _ => 1) payCoins payOuts = .ok (hexText w.bytes) ∧ P w := by
  obtain ⟨t, ht⟩ := pay_run
  rcases h with h | h
  · rw [ht] at h
    cases h
  · exact h

example : ∃ w : WireTx, Payment.run .real (fun _ => keySigner fun _ => 1) payCoins payOuts = .ok (hexText w.bytes) ∧
    ∃ sb h, sb ≠ h → ∀ flags, Ref.Spends .real flags w 0 (payScript h) := by
  obtain ⟨w, h, _, _, h1, _, _, h2⟩ := pay_ok (C92_run .real (fun _ _ => 1) (fun _ => nonce_one) payCoins payOuts
    (by simp [payCoins]) pay_coins (by simp [payOuts]) pay_outs (by simp [payCoins]) (by simp [payOuts]))
  obtain ⟨x, hx⟩ : ∃ x, w.inputs[0]? = some x := by
    have := h1.length_eq
    exact ⟨_, List.getElem?_eq_getElem (by rw [← this]; decide)⟩
  obtain ⟨sb, _, h3, _, _, _, h4⟩ := h2 0 _ x rfl hx
  exact ⟨w, h, sb, h3, h4⟩

example : ∃ w : WireTx, Payment.run .real (fun _ => keySigner fun _ => 1) payCoins payOuts = .ok (hexText w.bytes) ∧ Ref.Checks w :=
  pay_ok (C112_payment .real (fun _ _ => 1) (fun _ => nonce_one) payCoins payOuts (by simp [payCoins]) pay_coins
    (by simp [payOuts]) pay_outs (by simp [payCoins]) (by simp [payOuts]) (by decide) (by decide) (by decide))

example : ∃ w : WireTx, Payment.run .real (fun _ => keySigner fun _ => 1) payCoins payOuts = .ok (hexText w.bytes) ∧
    Ref.Standard 1000 w :=
  pay_ok (C113_payment .real (fun _ _ => 1) (fun _ => nonce_one) payCoins payOuts (by simp [payCoins]) pay_coins
    (by simp [payOuts]) pay_outs (by simp [payCoins]) (by simp [payOuts]) (by decide))

example : ∃ w : WireTx, Payment.run .real (fun _ => keySigner fun _ => 1) payCoins payOuts = .ok (hexText w.bytes) ∧
    ∀ height time, Ref.Final w height time :=
  pay_ok (C114_payment .real (fun _ _ => 1) (fun _ => nonce_one) payCoins payOuts (by simp [payCoins]) pay_coins
    (by simp [payOuts]) pay_outs (by simp [payCoins]) (by simp [payOuts]))

/-- The texts of `oneKey` and of its address. -/
def oneWif : Text := "KwDiBf89QgGbjEhKnhXJuH7LrciVrZi3qYjgd9M7rFU73sVHnoWn".toList
def oneText : Text := "1BgGZ9tcN4rm9KBzDn7KprQz87SZ26SAMH".toList

theorem one_owns : Owns .real oneWif oneText :=
  ⟨oneKey, ⟨oneHash, .livenet, .publicKey⟩, by decide +kernel, by decide +kernel, by decide +kernel⟩

/-- A transaction of somebody else that pays to `oneKey`. -/
def oneEntry : Entry := ⟨WireTx.bytes ⟨1, [], [⟨5000, payScript oneHash⟩], 0⟩, [(5000, oneText)], false⟩

theorem one_ledger : Ledger .real [oneEntry] :=
  .other _ _ .nil (.cons ⟨⟨oneHash, .livenet, .publicKey⟩, by decide +kernel, rfl, rfl⟩ .nil)

theorem one_paid : CoinText.Paid .real [oneEntry] ⟨oneEntry.id .real, 0, oneWif⟩ :=
  ⟨oneEntry, List.mem_singleton_self _, rfl, 0, 5000, oneText, by decide, rfl, rfl, one_owns⟩

/-- A ledger with a transaction made by the library, which spends the output of the first and to which C105 applies. -/
example : ∃ b, Ledger .real [oneEntry, ⟨b, [(4000, oneText)], true⟩] ∧ ∃ v w : WireTx, oneEntry.bytes = v.bytes ∧ b = w.bytes ∧
    ∀ (n : Nat) (x : WireIn), w.inputs[n]? = some x →
      ∃ o, x.txid = Hashes.real.sha256 (Hashes.real.sha256 v.bytes) ∧ v.outputs[x.index]? = some o := by
  have hp : ∀ p ∈ [((4000 : Int), oneText)], (0 ≤ p.1 ∧ p.1 < 2 ^ 64) ∧ ∃ a, Address.fromString .real p.2 = .ok a := fun p hp => by
    rw [List.mem_singleton.1 hp]
    exact ⟨by decide, ⟨oneHash, .livenet, .publicKey⟩, by decide +kernel⟩
  have hc : ∀ c ∈ [(⟨oneEntry.id .real, 0, oneWif⟩ : CoinText)], c.Paid .real [oneEntry] := fun c hc => by
    rw [List.mem_singleton.1 hc]
    exact one_paid
  obtain ⟨t, ht⟩ := ok_of_toBool (e := payTexts .real (fun _ => keySigner fun _ => 1) [⟨oneEntry.id .real, 0, oneWif⟩]
    [(4000, oneText)]) (by decide +kernel)
  rcases C105_progress .real [oneEntry] one_ledger (fun _ _ => 1) _ _ (fun _ => nonce_one) (List.cons_ne_nil _ _)
    (List.cons_ne_nil _ _) (by simp) (by simp) hp hc with h | ⟨b, h, hl⟩
  · rw [ht] at h
    cases h
  · refine ⟨b, hl, ?_⟩
    obtain ⟨ws, h1, h2⟩ := C105_chain .real _ hl
    obtain ⟨v, w, rfl, hv, hw⟩ : ∃ v w, ws = [v, w] ∧ oneEntry.bytes = v.bytes ∧ b = w.bytes := by
      cases h1 with
      | cons a h1 => cases h1 with
        | cons c h1 => cases h1; exact ⟨_, _, rfl, a.1, c.1⟩
    refine ⟨v, w, hv, hw, fun n x hx => ?_⟩
    obtain ⟨j, v', o, hj, hv', h3, h4, _⟩ := h2 1 _ w rfl rfl rfl n x hx
    obtain rfl : j = 0 := by omega
    cases hv'
    exact ⟨o, h3, h4⟩

/-- A request for 0.29 bitcoins that is paid with this coin. -/
example : ∃ t, askPayment .real oneWif 29000000 "beer".toList = .ok t ∧
    (payRequest .real (fun _ => keySigner fun _ => 1) [⟨oneEntry.id .real, 0, oneWif⟩] t [] = .error .rsZeroError ∨
      ∃ b e s v, payRequest .real (fun _ => keySigner fun _ => 1) [⟨oneEntry.id .real, 0, oneWif⟩] t [] = .ok (hexText b) ∧
        e = ⟨b, [(v, s)], true⟩ ∧ Asked 29000000 v ∧ Owns .real oneWif s ∧ Ledger .real ([oneEntry] ++ [e]) ∧
        CoinText.Paid .real ([oneEntry] ++ [e]) ⟨e.id .real, 0, oneWif⟩) :=
  C115_paid_partial .real [oneEntry] one_ledger oneWif oneKey (by decide +kernel) 29000000 (by decide) (by decide) "beer".toList
    (by unfold AsciiText; decide) (by decide) (fun _ _ => 1) (fun _ => nonce_one) _ [] (List.cons_ne_nil _ _) (by simp) (by simp)
    (by simp) (fun c hc => by rw [List.mem_singleton.1 hc]; exact one_paid)

end Bitforge
