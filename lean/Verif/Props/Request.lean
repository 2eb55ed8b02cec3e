import Verif.Props.Ledger
import Verif.Props.Codec
import Verif.Props.Bip21

/-! # C115: from a payment request to a payment -/

namespace Bitforge
open Spec Transaction

/-- A request for a payment to the key with this WIF: `URI({'address': …, 'amount': …, 'label': …}).to_uri()`. -/
def askPayment (H : Hashes) (wif : Text) (amount : Int) (label : Text) : Except Err Text :=
  match PrivateKey.fromWif H wif with
  | .error e => .error e
  | .ok k =>
    match k.toAddress H with
    | .error e => .error e
    | .ok a =>
      match a.toString H with
      | .error e => .error e
      | .ok s =>
        match URI.new H (.dict (some (some (.int amount))) [("address".toList, .text s), ("label".toList, .text label)]) with
        | .error e => .error e
        | .ok u => u.toUri H

/-- The payment of what a request asks for, `u = URI(t)`, with the program of the examples: `u.amount.satoshis` to
`u.address`, and what is left to other addresses. -/
def payRequest (H : Hashes) (signers : Nat → Signer) (coins : List CoinText) (t : Text) (change : List (Int × Text)) :
    Except Err Text :=
  match URI.new H (.text t) with
  | .error e => .error e
  | .ok u =>
    match u.amount with
    | none => .error .attributeError
    | some a =>
      match coins.mapM (CoinText.coin H) with
      | .error e => .error e
      | .ok cs =>
        match change.mapM (payee H) with
        | .error e => .error e
        | .ok ps => Payment.run H signers cs ((a.satoshis, u.address) :: ps)

/-- The amount `v` is what comes of a request for `n` satoshis. -/
def Asked (n v : Int) : Prop := ∃ m, Round12 n m ∧ (v = m ∨ v = m - 1) ∧ (390625 ∣ m → v = m) ∧ (n < 10 ^ 12 → m = n)

theorem ask_text (H : Hashes) (phash : Bytes) (hl : phash.length = 20) (test isScript : Bool) (s : Text)
    (hs : Address.toString H ⟨phash, netOf test, typeOf isScript⟩ = .ok s)
    (hs' : Address.fromString H s = .ok ⟨phash, netOf test, typeOf isScript⟩) (n : Int) (h0 : 0 ≤ n)
    (h1 : n ≤ 21000000 * 10 ^ 8) (label : Text) (ha : AsciiText label) (hne : label ≠ []) :
    ∃ u t u' a', URI.new H (.dict (some (some (.int n))) [("address".toList, .text s), ("label".toList, .text label)]) = .ok u ∧
      u.toUri H = .ok t ∧ URI.new H (.text t) = .ok u' ∧ u'.address = ⟨phash, netOf test, typeOf isScript⟩ ∧
      u'.label = some (.text label) ∧ u'.amount = some a' ∧ Asked n a'.satoshis ∧ 0 ≤ a'.satoshis ∧
      a'.satoshis ≤ 2 ^ 51 := by
  have hn : |n| ≤ 21000000 * 10 ^ 8 := by rw [abs_of_nonneg h0]; exact h1
  have hsat := ofSatoshis_small (abs_sat_le (le_trans hn (by norm_num) : |n| ≤ 2 ^ 51))
  generalize hA : (BtcUnit.mk n _ _ _) = A at hsat
  have hAn : A.satoshis = n := by rw [← hA]
  refine ⟨⟨⟨phash, netOf test, typeOf isScript⟩, some A, none, some (.text label), none, []⟩, ?_⟩
  have hu : URI.new H (.dict (some (some (.int n))) [("address".toList, .text s), ("label".toList, .text label)]) =
      .ok ⟨⟨phash, netOf test, typeOf isScript⟩, some A, none, some (.text label), none, []⟩ := by
    unfold URI.new URI.buildFromDict
    have e1 : Dict.get? [("address".toList, Value.text s), ("label".toList, Value.text label)] "address".toList =
        some (.text s) := rfl
    have e2 : Dict.get? [("address".toList, Value.text s), ("label".toList, Value.text label)] "label".toList =
        some (.text label) := rfl
    have e3 : Dict.get? [("address".toList, Value.text s), ("label".toList, Value.text label)] "message".toList = none := rfl
    have e4 : Dict.get? [("address".toList, Value.text s), ("label".toList, Value.text label)] "r".toList = none := rfl
    unfold BtcUnit.ofSatoshis at hsat
    simp only [e1, e2, e3, e4, URI.readAddress, hs', hsat, bind, Except.bind, pure, Except.pure, Except.map]
    rfl
  have ho : OrdinaryUri ⟨⟨phash, netOf test, typeOf isScript⟩, some A, none, some (.text label), none, []⟩ :=
    ⟨⟨phash, test, isScript, hl, rfl⟩, by unfold Dict.Unique; exact List.nodup_nil, by simp, (by intro v hv; cases hv),
      (by intro v hv; injection hv with hv; exact ⟨label, hv.symm, ha, hne⟩), (by intro v hv; cases hv),
      (by intro a h; injection h with h; exact ⟨n, h ▸ hsat, hn⟩)⟩
  obtain ⟨t, u', a', m, q1, q2, q3, q4, q5, -, q6, q7⟩ := C60_amount_partial H _ ho _ rfl
  have hq : URI.query ⟨⟨phash, netOf test, typeOf isScript⟩, some A, none, some (.text label), none, []⟩ ≠ [] := by
    intro hq
    have := (query_get ho).1
    rw [hq] at this
    cases this
  obtain ⟨t2, u2, r1, r2, r3, -, r4, -⟩ := C60_roundtrip_partial H _ ho (.inl hq)
  rw [q1] at r1
  cases r1
  rw [q2] at r2
  cases r2
  simp only [hAn] at q5 q4 q7
  have q5' := q5 h0
  have hm : 0 ≤ m := by
    obtain ⟨k, k1, k2, k3, k4⟩ := q4
    rcases k2 with rfl | k2
    · rw [pow_zero] at k4
      have := abs_le.1 (le_refl |m - n|)
      omega
    · rw [abs_of_nonneg h0] at k2
      have hk : (10 : Int) ^ k ≤ n := le_trans (pow_le_pow_right₀ (by norm_num) (by omega)) k2
      have := abs_le.1 (le_refl |m - n|)
      omega
  have hb := abs_le.1 (round12_bound q4 hn)
  refine ⟨t, u', a', hu, q1, q2, r3, r4, q3, ⟨m, q4, by omega, q6, fun hlt => q7 ⟨n, -8, ?_, ?_⟩⟩, ?_, by omega⟩
  · rw [abs_of_nonneg h0]; exact hlt
  · simp only [zpow_neg]; norm_num; ring
  · by_cases h : m = 0
    · subst h
      rw [q6 (by simp)]
    · omega

/-- C115, part that holds: a request for a payment to a key is a text, which is paid like an amount that is the one asked
for, rounded to 12 digits, or one satoshi less, to the address of the key; `payTexts` is the program of C105, about which
that property speaks.  (Missing: the last satoshi and amounts of more than 12 digits, which change, see C60; addresses of
scripts and negative amounts, see the refutations.) -/
theorem C115_request_partial (H : Hashes) (wif : Text) (k : PrivateKey) (hk : PrivateKey.fromWif H wif = .ok k) (n : Int)
    (h0 : 0 ≤ n) (h1 : n ≤ 21000000 * 10 ^ 8) (label : Text) (ha : AsciiText label) (hne : label ≠ []) :
    ∃ s t v, Owns H wif s ∧ askPayment H wif n label = .ok t ∧ Asked n v ∧ 0 ≤ v ∧ v < 2 ^ 64 ∧
      ∀ signers coins change, payRequest H signers coins t change = payTexts H signers coins ((v, s) :: change) := by
  obtain ⟨d, test, c, hd0, hd1, rfl, -⟩ := (C13_from_wif_iff H wif k).1 hk
  obtain ⟨p, b, hp, hb, hadr⟩ := C20_address H d (.network (netOf test)) c ⟨d, netOf test, c⟩
    (by rw [make_network, if_pos ⟨by exact_mod_cast hd0, by simpa [PrivateKey.keyMax] using hd1⟩])
  obtain ⟨_, ⟨s, hs, hs'⟩, _⟩ := C15_roundtrip H (H.ripemd160 (H.sha256 b)) (H.ripemd160_length _) test false
  obtain ⟨u, t, u', a', e1, e2, e3, e4, -, e5, e6, e7, e8⟩ :=
    ask_text H _ (H.ripemd160_length _) test false s hs hs' n h0 h1 label ha hne
  have hs2 : Address.toString H ⟨H.ripemd160 (H.sha256 b), netOf test, .publicKey⟩ = .ok s := hs
  refine ⟨s, t, a'.satoshis, ⟨_, _, hk, hadr, hs⟩, ?_, e6, e7, by omega, fun signers coins change => ?_⟩
  · unfold askPayment
    simp only [hk, hadr, hs2, e1, e2]
  · unfold payRequest payTexts
    have hpay : payee H (a'.satoshis, s) = .ok (a'.satoshis, u'.address) := by
      unfold payee
      simp only [hs', e4]
    simp only [e3, e5]
    rw [List.mapM_cons, hpay]
    cases coins.mapM (CoinText.coin H) with
    | error e => rfl
    | ok cs =>
      cases change.mapM (payee H) with
      | error e => rfl
      | ok ps => rfl

/-- C115: who pays a request with coins that earlier transactions have paid makes a transaction that continues the chain of
C105, and its first output is a coin for the key of the request. -/
theorem C115_paid_partial (H : Hashes) (es : List Entry) (h : Ledger H es) (wif : Text) (k : PrivateKey)
    (hk : PrivateKey.fromWif H wif = .ok k) (n : Int) (h0 : 0 ≤ n) (h1 : n ≤ 21000000 * 10 ^ 8) (label : Text)
    (ha : AsciiText label) (hne : label ≠ []) (nonces : Nat → Nat → Nat) (hν : ∀ n, NoncesOk (nonces n))
    (coins : List CoinText) (change : List (Int × Text)) (hc : coins ≠ []) (hcl : coins.length < 2 ^ 63)
    (hpl : change.length + 1 < 2 ^ 63) (hpo : ∀ p ∈ change, (0 ≤ p.1 ∧ p.1 < 2 ^ 64) ∧ ∃ a, Address.fromString H p.2 = .ok a)
    (hpaid : ∀ c ∈ coins, c.Paid H es) :
    ∃ t, askPayment H wif n label = .ok t ∧
      (payRequest H (fun n => keySigner (nonces n)) coins t change = .error .rsZeroError ∨
      ∃ b e s v, payRequest H (fun n => keySigner (nonces n)) coins t change = .ok (hexText b) ∧
        e = ⟨b, (v, s) :: change, true⟩ ∧ Asked n v ∧ Owns H wif s ∧ Ledger H (es ++ [e]) ∧
        CoinText.Paid H (es ++ [e]) ⟨e.id H, 0, wif⟩) := by
  obtain ⟨s, t, v, ho, ht, hv, hv0, hv1, hpay⟩ := C115_request_partial H wif k hk n h0 h1 label ha hne
  refine ⟨t, ht, ?_⟩
  rw [hpay]
  have hto : ∃ a, Address.fromString H s = .ok a := by
    obtain ⟨k', a, hk', hka, has⟩ := ho
    rw [hk] at hk'
    cases hk'
    obtain ⟨d, test, c, hd0, hd1, rfl, -⟩ := (C13_from_wif_iff H wif k).1 hk
    obtain ⟨p, b, hp, hb, hadr⟩ := C20_address H d (.network (netOf test)) c ⟨d, netOf test, c⟩
      (by rw [make_network, if_pos ⟨by exact_mod_cast hd0, by simpa [PrivateKey.keyMax] using hd1⟩])
    rw [hka] at hadr
    cases hadr
    obtain ⟨_, ⟨s', hs, hs'⟩, _⟩ := C15_roundtrip H (H.ripemd160 (H.sha256 b)) (H.ripemd160_length _) test false
    have : s' = s := by
      have hs2 : Address.toString H ⟨H.ripemd160 (H.sha256 b), netOf test, .publicKey⟩ = .ok s' := hs
      rw [has] at hs2
      exact (Except.ok.inj hs2).symm
    exact ⟨_, this ▸ hs'⟩
  rcases C105_progress H es h nonces coins ((v, s) :: change) hν hc (by simp) hcl (by simpa using hpl)
    (by
      intro p hp
      rcases List.mem_cons.1 hp with rfl | hp
      · exact ⟨⟨hv0, hv1⟩, hto⟩
      · exact hpo p hp) hpaid with he | ⟨b, hb, hl⟩
  · exact .inl he
  · exact .inr ⟨b, _, s, v, hb, rfl, hv, ho, hl, _, by simp, rfl, 0, v, s, by norm_num, rfl, rfl, ho⟩

/-- C115 is false of the code for addresses of scripts: the payment of a request for such an address pays to the hash of
the script as if it were that of a key, so that the owner of the script cannot spend it. -/
theorem C115_script_refuted (H : Hashes) (phash : Bytes) (hl : phash.length = 20) (test : Bool) (n : Int) (h0 : 0 ≤ n)
    (h1 : n ≤ 21000000 * 10 ^ 8) (label : Text) (ha : AsciiText label) (hne : label ≠ []) (nonces : Nat → Nat → Nat)
    (hν : ∀ n, NoncesOk (nonces n)) (coins : List CoinText) (cs : List Coin) (hcs : coins.mapM (CoinText.coin H) = .ok cs)
    (hc : cs ≠ []) (hco : ∀ c ∈ cs, c.Ok) (hcl : cs.length < 2 ^ 63) :
    ∃ s u t, Address.toString H ⟨phash, netOf test, .script⟩ = .ok s ∧
      URI.new H (.dict (some (some (.int n))) [("address".toList, .text s), ("label".toList, .text label)]) = .ok u ∧
      u.toUri H = .ok t ∧
      (payRequest H (fun n => keySigner (nonces n)) coins t [] = .error .rsZeroError ∨
      ∃ (w : WireTx) (o : WireOut), payRequest H (fun n => keySigner (nonces n)) coins t [] = .ok (hexText w.bytes) ∧
        w.outputs = [o] ∧ o.script = 118 :: 169 :: 20 :: (phash ++ [136, 172]) ∧ o.script ≠ 169 :: 20 :: (phash ++ [135])) := by
  obtain ⟨_, ⟨s, hs, hs'⟩, _⟩ := C15_roundtrip H phash hl test true
  obtain ⟨u, t, u', a', e1, e2, e3, e4, -, e5, -, e7, e8⟩ := ask_text H _ hl test true s hs hs' n h0 h1 label ha hne
  refine ⟨s, u, t, hs, e1, e2, ?_⟩
  have hrun : payRequest H (fun n => keySigner (nonces n)) coins t [] =
      Payment.run H (fun n => keySigner (nonces n)) cs [(a'.satoshis, u'.address)] := by
    unfold payRequest
    simp only [e3, e5, hcs]
    rfl
  rw [hrun]
  rcases C92_run H nonces hν cs [(a'.satoshis, u'.address)] hc hco (by simp)
    (by
      intro p hp
      rw [List.mem_singleton] at hp
      subst hp
      exact ⟨⟨e7, by simp only; omega⟩, by simp only [e4]; exact hl⟩) hcl (by norm_num) with he | ⟨w, hw, -, -, -, hout, -⟩
  · exact .inl he
  · obtain ⟨o, hw1, hw2⟩ : ∃ o, w.outputs = [o] ∧ Pays (a'.satoshis, u'.address) o := by
      obtain ⟨o, l, h1, h2, h3⟩ := List.forall₂_cons_left_iff.1 hout
      rw [List.forall₂_nil_left_iff] at h2
      exact ⟨o, by rw [h3, h2], h1⟩
    refine .inr ⟨w, o, hw, hw1, ?_, ?_⟩
    · rw [hw2.2, e4]; rfl
    · rw [hw2.2]
      intro h
      have := congrArg List.head? h
      simp [payScript] at this

/-- C115 is false of the code for negative amounts: such a request is not refused, and the output that is made for it pays
nothing. -/
theorem C115_negative_refuted (H : Hashes) (s : Text) (ad : Address) (h : Address.fromString H s = .ok ad) :
    ∃ u b o, URI.new H (.text (request s "amount=-1".toList)) = .ok u ∧ u.amount = some b ∧ b.satoshis = -100000000 ∧
      AddressOutput.create b.satoshis ad = .ok o ∧
      o.toBytes = .ok (List.replicate 8 0 ++ 25 :: (118 :: 169 :: 20 :: (ad.phash ++ [136, 172]))) := by
  obtain ⟨-, u, b, h1, h2, h3⟩ := C110_negative_refuted H s ad h
  obtain ⟨_, phash, _, _, _, ⟨hl, _⟩, rfl⟩ := (C16_from_string_iff H s ad).1 h
  obtain ⟨o, ho, -, hoa, hos, -⟩ := C43_address b.satoshis ⟨phash, _, _⟩ hl
  refine ⟨u, b, o, h1, h2, h3, ho, ?_⟩
  unfold Output.toBytes
  rw [hos]
  simp only [hoa, h3]
  rw [C02_negative_zero _ (by norm_num)]
  have : (118 :: 169 :: 20 :: (phash ++ [136, 172]) : Bytes).length = 25 := by simp [hl]
  rw [this]
  rfl

/-- A key, an amount and a label to which this applies: of 0.29 bitcoins a satoshi may be lost. -/
example (H : Hashes) : ∃ wif k, PrivateKey.fromWif H wif = .ok k ∧ AsciiText "beer".toList ∧
    Asked 29000000 28999999 ∧ Asked 29000000 29000000 ∧ ¬ Asked 29000000 28999998 := by
  obtain ⟨wif, s, a, b, hw, ho, ha, _⟩ := C105_texts H 7 false true (by decide) (by decide)
  obtain ⟨k, -, hk, -⟩ := ho
  have hr : Round12 29000000 29000000 := ⟨0, by decide, by decide, by decide, by decide⟩
  refine ⟨wif, k, hk, by unfold AsciiText; decide, ⟨_, hr, by decide, by decide, fun _ => rfl⟩,
    ⟨_, hr, by decide, by decide, fun _ => rfl⟩, ?_⟩
  rintro ⟨m, -, h1, -, h2⟩
  rw [h2 (by norm_num)] at h1
  omega

end Bitforge
