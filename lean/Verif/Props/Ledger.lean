import Verif.Props.Payment

/-! # C105: from texts to a chain of payments

Keys are kept as WIFs and addresses are passed on as texts; a payment spends outputs of earlier transactions. -/

namespace Bitforge
open Spec Transaction

/-- What is kept of an output to spend: the identifier of the transaction, the index, the WIF of the key. -/
structure CoinText where
  txId : Text
  index : Int
  wif : Text

/-- `PrivateKey.from_wif` for the key. -/
def CoinText.coin (H : Hashes) (c : CoinText) : Except Err Coin :=
  match PrivateKey.fromWif H c.wif with
  | .error e => .error e
  | .ok k => .ok ⟨c.txId, c.index, k⟩

/-- `Address.from_string` for the address to pay to. -/
def payee (H : Hashes) (p : Int × Text) : Except Err (Int × Address) :=
  match Address.fromString H p.2 with
  | .error e => .error e
  | .ok a => .ok (p.1, a)

/-- The program of `examples/example_pubkey.py` on what is kept: texts in, text out. -/
def payTexts (H : Hashes) (signers : Nat → Signer) (coins : List CoinText) (pays : List (Int × Text)) : Except Err Text :=
  match coins.mapM (CoinText.coin H) with
  | .error e => .error e
  | .ok cs =>
    match pays.mapM (payee H) with
    | .error e => .error e
    | .ok ps => Payment.run H signers cs ps

/-- The text is the address of the key that the WIF encodes. -/
def Owns (H : Hashes) (wif s : Text) : Prop :=
  ∃ k a, PrivateKey.fromWif H wif = .ok k ∧ k.toAddress H = .ok a ∧ a.toString H = .ok s

/-- The output pays the amount to the address with the text. -/
def PaysText (H : Hashes) (p : Int × Text) (o : WireOut) : Prop := ∃ a, Address.fromString H p.2 = .ok a ∧ Pays (p.1, a) o

/-- A transaction as it is published, and to whom it pays. -/
structure Entry where
  bytes : Bytes
  pays : List (Int × Text)
  own : Bool

/-- The identifier of the outputs of the entry that the format of transactions requires: the bytes of the hash from the
last to the first.  `get_id` gives them from the first to the last (C44). -/
def Entry.id (H : Hashes) (e : Entry) : Text := hexText (H.sha256 (H.sha256 e.bytes)).reverse

/-- The coin is an output of an entry that pays to the address of its key. -/
def CoinText.Paid (H : Hashes) (es : List Entry) (c : CoinText) : Prop :=
  ∃ f ∈ es, c.txId = f.id H ∧ ∃ (m : Nat) (amount : Int) (s : Text), m < 2 ^ 32 ∧ c.index = m ∧ f.pays[m]? = some (amount, s) ∧
    Owns H c.wif s

/-- The transactions that others have made and those that the program makes of coins that earlier ones have paid. -/
inductive Ledger (H : Hashes) : List Entry → Prop
  | nil : Ledger H []
  | other {es : List Entry} (w : WireTx) (pays : List (Int × Text)) : Ledger H es →
      List.Forall₂ (PaysText H) pays w.outputs → Ledger H (es ++ [⟨w.bytes, pays, false⟩])
  | own {es : List Entry} (nonces : Nat → Nat → Nat) (coins : List CoinText) (pays : List (Int × Text)) (b : Bytes) :
      Ledger H es → (∀ n, NoncesOk (nonces n)) → coins ≠ [] → pays ≠ [] → coins.length < 2 ^ 63 → pays.length < 2 ^ 63 →
      (∀ p ∈ pays, 0 ≤ p.1 ∧ p.1 < 2 ^ 64) → (∀ c ∈ coins, c.Paid H es) →
      payTexts H (fun n => keySigner (nonces n)) coins pays = .ok (hexText b) → Ledger H (es ++ [⟨b, pays, true⟩])

theorem hexText_inj {a b : Bytes} (h : hexText a = hexText b) : a = b := by
  rw [hexText_eq, hexText_eq] at h
  exact encodeHex_inj h

theorem mapM_forall₂ {α β : Type} {f : α → Except Err β} {xs : List α} {ys : List β} (h : xs.mapM f = .ok ys) :
    List.Forall₂ (fun x y => f x = .ok y) xs ys := by
  induction xs generalizing ys with
  | nil => cases h; exact .nil
  | cons x xs ih =>
    rw [List.mapM_cons] at h
    cases hx : f x with
    | error e => rw [hx] at h; cases h
    | ok y =>
      cases hr : xs.mapM f with
      | error e => rw [hx, hr] at h; cases h
      | ok zs =>
        rw [hx, hr] at h
        cases h
        exact .cons hx (ih hr)

theorem forall₂_get {α β : Type} {R : α → β → Prop} {xs : List α} {ys : List β} (h : List.Forall₂ R xs ys) {n : Nat} {x : α}
    (hx : xs[n]? = some x) : ∃ y, ys[n]? = some y ∧ R x y := by
  obtain ⟨l, rfl⟩ := List.getElem?_eq_some_iff.1 hx
  have l' : n < ys.length := h.length_eq ▸ l
  exact ⟨_, List.getElem?_eq_getElem l', (List.forall₂_iff_get.1 h).2 n l l'⟩

theorem forall₂_get' {α β : Type} {R : α → β → Prop} {xs : List α} {ys : List β} (h : List.Forall₂ R xs ys) {n : Nat} {y : β}
    (hy : ys[n]? = some y) : ∃ x, xs[n]? = some x ∧ R x y := forall₂_get h.flip hy

theorem forall₂_snoc {α β : Type} {R : α → β → Prop} {xs : List α} {ys : List β} (h : List.Forall₂ R xs ys) {x : α} {y : β}
    (hxy : R x y) : List.Forall₂ R (xs ++ [x]) (ys ++ [y]) := by
  induction h with
  | nil => exact .cons hxy .nil
  | cons h _ ih => exact .cons h ih

theorem snoc_get {α β : Type} {xs : List α} {ys : List β} (hl : xs.length = ys.length) {k : Nat} {x x' : α} {y y' : β}
    (hx : (xs ++ [x])[k]? = some x') (hy : (ys ++ [y])[k]? = some y') :
    (xs[k]? = some x' ∧ ys[k]? = some y') ∨ (k = xs.length ∧ x' = x ∧ y' = y) := by
  by_cases h : k < xs.length
  · rw [List.getElem?_append_left h] at hx
    rw [List.getElem?_append_left (by omega)] at hy
    exact .inl ⟨hx, hy⟩
  · have hk := (List.getElem?_eq_some_iff.1 hx).1
    rw [List.length_append, List.length_singleton] at hk
    have e : k = xs.length := by omega
    subst e
    rw [List.getElem?_append_right (by omega)] at hx hy
    simp [hl] at hx hy
    exact .inr ⟨rfl, hx.symm, hy.symm⟩

theorem snoc_left {α : Type} {xs : List α} {k : Nat} {x y : α} (h : xs[k]? = some x) : (xs ++ [y])[k]? = some x := by
  rw [List.getElem?_append_left (List.getElem?_eq_some_iff.1 h).1]
  exact h

theorem txId_ok (b : Bytes) (h : b.length = 32) : TxIdOk (hexText b) := by
  have hl : (hexText b).length = 2 * b.length := by rw [hexText_eq, encodeHex_length]
  obtain ⟨_, h2⟩ := (hexLower_iff (hexText b)).2 ⟨b, (hexText_eq b).symm, hl.symm⟩
  exact ⟨by rw [hl, h], h2⟩

/-- C105. The key that a WIF gives back and the address that its text gives back belong together. -/
theorem C105_owns (H : Hashes) (wif s : Text) (k : PrivateKey) (a : Address) (h : Owns H wif s)
    (hk : PrivateKey.fromWif H wif = .ok k) (ha : Address.fromString H s = .ok a) :
    k.Good ∧ ∃ b, KeyHash H k b a.phash := by
  obtain ⟨k', a', h1, h2, h3⟩ := h
  rw [hk] at h1
  cases h1
  obtain ⟨n, test, c, hn, hn', rfl, _⟩ := (C13_from_wif_iff H wif k).1 hk
  have hg : PrivateKey.Good ⟨n, netOf test, c⟩ := ⟨by simpa using hn, by simpa using hn'⟩
  refine ⟨hg, ?_⟩
  obtain ⟨p, b, hp, hb, hadr⟩ := C20_address H _ (.network (netOf test)) c ⟨n, netOf test, c⟩
    (by rw [make_network, if_pos ⟨hg.1, hg.2⟩])
  rw [hadr] at h2
  cases h2
  obtain ⟨_, ⟨t, ht, ht'⟩, _⟩ := C15_roundtrip H (H.ripemd160 (H.sha256 b)) (H.ripemd160_length _) test false
  have e : Address.toString H ⟨H.ripemd160 (H.sha256 b), netOf test, typeOf false⟩ = .ok s := h3
  rw [ht] at e
  cases e
  rw [ha] at ht'
  cases ht'
  exact ⟨b, p, hp, hb, rfl⟩

/-- C105. Every transaction of such a chain that the program has made spends, with each of its inputs, an output of an
earlier transaction, and the reference client accepts it under all flags (unless the signature is the hash of the key). -/
theorem C105_chain (H : Hashes) (es : List Entry) (h : Ledger H es) : ∃ ws : List WireTx,
    List.Forall₂ (fun e w => e.bytes = w.bytes ∧ List.Forall₂ (PaysText H) e.pays w.outputs) es ws ∧
    ∀ (k : Nat) (e : Entry) (w : WireTx), es[k]? = some e → ws[k]? = some w → e.own = true →
      ∀ (n : Nat) (x : WireIn), w.inputs[n]? = some x → ∃ (j : Nat) (v : WireTx) (o : WireOut), j < k ∧ ws[j]? = some v ∧
        x.txid = H.sha256 (H.sha256 v.bytes) ∧ v.outputs[x.index]? = some o ∧
        ((∀ sb b h, x.script = shortPush sb ++ shortPush b → o.script = payScript h → sb ≠ h) →
          ∀ flags, Ref.Spends H flags w n o.script) := by
  induction h with
  | nil => exact ⟨[], .nil, fun k e w h => by simp at h⟩
  | @other es w pays _ hp ih =>
    obtain ⟨ws, hf, hk⟩ := ih
    refine ⟨ws ++ [w], forall₂_snoc hf ⟨rfl, hp⟩, fun k e v he hv ho n x hx => ?_⟩
    rcases snoc_get hf.length_eq he hv with ⟨he, hv⟩ | ⟨rfl, rfl, rfl⟩
    · obtain ⟨j, v', o, hj, hv', r⟩ := hk k e v he hv ho n x hx
      exact ⟨j, v', o, hj, snoc_left hv', r⟩
    · cases ho
  | @own es nonces coins pays b _ hν hc0 hp0 hcl hpl hpo hpaid hrun ih =>
    obtain ⟨ws, hf, hk⟩ := ih
    unfold payTexts at hrun
    cases hcs : coins.mapM (CoinText.coin H) with
    | error e => rw [hcs] at hrun; cases hrun
    | ok cs =>
      cases hps : pays.mapM (payee H) with
      | error e => rw [hcs, hps] at hrun; cases hrun
      | ok ps =>
        rw [hcs, hps] at hrun
        simp only at hrun
        have fc := mapM_forall₂ hcs
        have fp := mapM_forall₂ hps
        have hcoin : ∀ (n : Nat) (c : Coin), cs[n]? = some c → ∃ (ct : CoinText) (f : Entry) (j : Nat) (v : WireTx) (o : WireOut)
            (bb h : Bytes), coins[n]? = some ct ∧ es[j]? = some f ∧ ws[j]? = some v ∧ f.bytes = v.bytes ∧ c.txId = f.id H ∧
            0 ≤ c.index ∧ c.index < 2 ^ 32 ∧ v.outputs[c.index.toNat]? = some o ∧ o.script = payScript h ∧ KeyHash H c.key bb h ∧
            c.key.Good := by
          intro n c hc
          obtain ⟨ct, hct, hcc⟩ := forall₂_get' fc hc
          obtain ⟨f, hfm, hid, m, am, s, hm, hix, hpm, ow⟩ := hpaid ct (List.mem_of_getElem? hct)
          obtain ⟨j, hj⟩ := List.mem_iff_getElem?.1 hfm
          obtain ⟨v, hv, hb, hpv⟩ := forall₂_get hf hj
          obtain ⟨o, ho, a, ha, hpay⟩ := forall₂_get hpv hpm
          unfold CoinText.coin at hcc
          cases hw : PrivateKey.fromWif H ct.wif with
          | error e => rw [hw] at hcc; cases hcc
          | ok k =>
            rw [hw] at hcc
            cases hcc
            obtain ⟨hg, bb, hkh⟩ := C105_owns H _ _ k a ow hw ha
            exact ⟨ct, f, j, v, o, bb, _, hct, hj, hv, hb, hid, by simp only; omega, by simp only; omega,
              by simp only [hix, Int.toNat_natCast]; exact ho, hpay.2, hkh, hg⟩
        have hco : ∀ c ∈ cs, c.Ok := by
          intro c hc
          obtain ⟨n, hn⟩ := List.mem_iff_getElem?.1 hc
          obtain ⟨ct, f, j, v, o, bb, h, _, _, _, _, hid, h0, h1, _, _, _, hg⟩ := hcoin n c hn
          exact ⟨by rw [hid]; exact txId_ok _ (by rw [List.length_reverse, H.sha256_length]), ⟨h0, h1⟩, hg⟩
        have hpo' : ∀ p ∈ ps, PayOk p := by
          intro p hp
          obtain ⟨n, hn⟩ := List.mem_iff_getElem?.1 hp
          obtain ⟨q, hq, hqp⟩ := forall₂_get' fp hn
          unfold payee at hqp
          cases ha : Address.fromString H q.2 with
          | error e => rw [ha] at hqp; cases hqp
          | ok a =>
            rw [ha] at hqp
            cases hqp
            obtain ⟨_, phash, _, _, _, ⟨hl, _⟩, rfl⟩ := (C16_from_string_iff H q.2 a).1 ha
            exact ⟨hpo q (List.mem_of_getElem? hq), hl⟩
        have hcne : cs ≠ [] := fun e => hc0 (by rw [e] at fc; cases fc; rfl)
        have hpne : ps ≠ [] := fun e => hp0 (by rw [e] at fp; cases fp; rfl)
        rcases C92_run H nonces hν cs ps hcne hco hpne hpo' (fc.length_eq ▸ hcl) (fp.length_eq ▸ hpl) with he |
          ⟨w, hw, _, _, hsp, hpys, _, hall⟩
        · rw [he] at hrun; cases hrun
        · rw [hw] at hrun
          have hbw : w.bytes = b := hexText_inj (by injection hrun)
          have hout : List.Forall₂ (PaysText H) pays w.outputs := by
            rw [List.forall₂_iff_get]
            refine ⟨fp.length_eq.trans hpys.length_eq, fun i l1 l2 => ?_⟩
            have l3 : i < ps.length := fp.length_eq ▸ l1
            have q1 := (List.forall₂_iff_get.1 fp).2 i l1 l3
            have q2 := (List.forall₂_iff_get.1 hpys).2 i l3 l2
            unfold payee at q1
            cases ha : Address.fromString H (pays.get ⟨i, l1⟩).2 with
            | error e => rw [ha] at q1; cases q1
            | ok a =>
              rw [ha] at q1
              injection q1 with q1
              exact ⟨a, ha, q1 ▸ q2⟩
          refine ⟨ws ++ [w], forall₂_snoc hf ⟨hbw.symm, hout⟩, fun k e v he hv ho n x hx => ?_⟩
          rcases snoc_get hf.length_eq he hv with ⟨he, hv⟩ | ⟨rfl, rfl, rfl⟩
          · obtain ⟨j, v', o, hj, hv', r⟩ := hk k e v he hv ho n x hx
            exact ⟨j, v', o, hj, snoc_left hv', r⟩
          · obtain ⟨c, hc, s1, s2, _⟩ := forall₂_get' hsp hx
            obtain ⟨ct, f, j, v', o, bb, h, _, hj, hv', hb, hid, h0, h1, ho', hos, hkh, _⟩ := hcoin n c hc
            obtain ⟨sb, b', h', hkh', hscr, _, hacc⟩ := hall n c x hc hx
            obtain ⟨p, p1, p2, rfl⟩ := hkh
            obtain ⟨p', p1', p2', rfl⟩ := hkh'
            rw [p1] at p1'
            cases p1'
            rw [p2] at p2'
            cases p2'
            refine ⟨j, v', o, (List.getElem?_eq_some_iff.1 hj).1, snoc_left hv', ?_, ?_, ?_⟩
            · rw [s1] at hid
              have := List.reverse_injective (hexText_inj hid)
              rw [this, hb]
            · rw [s2, Int.toNat_natCast] at ho'
              exact ho'
            · intro hne flags
              rw [hos]
              exact hacc (hne _ _ _ hscr hos) flags

/-- C105. Every key of the two networks has a WIF and an address with texts that belong together. -/
theorem C105_texts (H : Hashes) (n : Nat) (test c : Bool) (h1 : 0 < n) (h2 : n < secpN) : ∃ wif s a b,
    PrivateKey.toWif H ⟨n, netOf test, c⟩ = .ok wif ∧ Owns H wif s ∧ Address.fromString H s = .ok a ∧
    KeyHash H ⟨n, netOf test, c⟩ b a.phash := by
  obtain ⟨wif, hw, hw'⟩ := C12_roundtrip H n test c (by exact_mod_cast h1) (by exact_mod_cast h2)
  obtain ⟨p, b, hp, hb, hadr⟩ := C20_address H n (.network (netOf test)) c ⟨n, netOf test, c⟩
    (by rw [make_network, if_pos ⟨by exact_mod_cast h1, by simpa [PrivateKey.keyMax] using h2⟩])
  obtain ⟨_, ⟨s, hs, hs'⟩, _⟩ := C15_roundtrip H (H.ripemd160 (H.sha256 b)) (H.ripemd160_length _) test false
  exact ⟨wif, s, _, b, hw, ⟨_, _, hw', hadr, hs⟩, hs', p, hp, hb, rfl⟩

theorem mapM_ok {α β : Type} {f : α → Except Err β} {xs : List α} (h : ∀ x ∈ xs, ∃ y, f x = .ok y) :
    ∃ ys, xs.mapM f = .ok ys := by
  induction xs with
  | nil => exact ⟨[], rfl⟩
  | cons x xs ih =>
    obtain ⟨y, hy⟩ := h x (by simp)
    obtain ⟨ys, hys⟩ := ih fun z hz => h z (by simp [hz])
    exact ⟨y :: ys, by rw [List.mapM_cons, hy, hys]; rfl⟩

/-- C105. Coins that earlier transactions have paid can be spent: the program gives a text, which continues the chain,
unless the signer meets the one nonce in 2^256 that it refuses. -/
theorem C105_progress (H : Hashes) (es : List Entry) (h : Ledger H es) (nonces : Nat → Nat → Nat) (coins : List CoinText)
    (pays : List (Int × Text)) (hν : ∀ n, NoncesOk (nonces n)) (hc : coins ≠ []) (hp : pays ≠ []) (hcl : coins.length < 2 ^ 63)
    (hpl : pays.length < 2 ^ 63) (hpo : ∀ p ∈ pays, (0 ≤ p.1 ∧ p.1 < 2 ^ 64) ∧ ∃ a, Address.fromString H p.2 = .ok a)
    (hpaid : ∀ c ∈ coins, c.Paid H es) :
    payTexts H (fun n => keySigner (nonces n)) coins pays = .error .rsZeroError ∨
    ∃ b, payTexts H (fun n => keySigner (nonces n)) coins pays = .ok (hexText b) ∧ Ledger H (es ++ [⟨b, pays, true⟩]) := by
  obtain ⟨cs, hcs⟩ := mapM_ok (f := CoinText.coin H) (xs := coins) fun c hc => by
    obtain ⟨_, _, _, _, _, _, _, _, _, k, _, hk, _⟩ := hpaid c hc
    exact ⟨⟨c.txId, c.index, k⟩, by unfold CoinText.coin; rw [hk]⟩
  obtain ⟨ps, hps⟩ := mapM_ok (f := payee H) (xs := pays) fun p hp => by
    obtain ⟨_, a, ha⟩ := hpo p hp
    exact ⟨(p.1, a), by unfold payee; rw [ha]⟩
  have fc := mapM_forall₂ hcs
  have fp := mapM_forall₂ hps
  have e : payTexts H (fun n => keySigner (nonces n)) coins pays = Payment.run H (fun n => keySigner (nonces n)) cs ps := by
    unfold payTexts
    rw [hcs, hps]
  have hco : ∀ c ∈ cs, c.Ok := by
    intro c hc
    obtain ⟨n, hn⟩ := List.mem_iff_getElem?.1 hc
    obtain ⟨ct, hct, hcc⟩ := forall₂_get' fc hn
    obtain ⟨f, _, hid, m, _, _, hm, hix, _, k, a, hk, _⟩ := hpaid ct (List.mem_of_getElem? hct)
    unfold CoinText.coin at hcc
    rw [hk] at hcc
    cases hcc
    obtain ⟨v, test, c, hv, hv', rfl, _⟩ := (C13_from_wif_iff H _ k).1 hk
    exact ⟨by simp only [hid]; exact txId_ok _ (by rw [List.length_reverse, H.sha256_length]),
      ⟨by simp only; omega, by simp only; omega⟩, ⟨by simpa using hv, by simpa using hv'⟩⟩
  have hpo' : ∀ p ∈ ps, PayOk p := by
    intro p hp
    obtain ⟨n, hn⟩ := List.mem_iff_getElem?.1 hp
    obtain ⟨q, hq, hqp⟩ := forall₂_get' fp hn
    obtain ⟨h0, a, ha⟩ := hpo q (List.mem_of_getElem? hq)
    unfold payee at hqp
    rw [ha] at hqp
    cases hqp
    obtain ⟨_, phash, _, _, _, ⟨hl, _⟩, rfl⟩ := (C16_from_string_iff H q.2 a).1 ha
    exact ⟨h0, hl⟩
  have hcne : cs ≠ [] := fun e => hc (by rw [e] at fc; cases fc; rfl)
  have hpne : ps ≠ [] := fun e => hp (by rw [e] at fp; cases fp; rfl)
  rw [e]
  rcases C92_run H nonces hν cs ps hcne hco hpne hpo' (fc.length_eq ▸ hcl) (fp.length_eq ▸ hpl) with he | ⟨w, hw, _⟩
  · exact .inl he
  · exact .inr ⟨w.bytes, hw, .own nonces coins pays w.bytes h hν hc hp hcl hpl (fun p hp => (hpo p hp).1) hpaid (e.trans hw)⟩

/-- A transaction of somebody else that pays to the key 7, and a coin of its output. -/
example (H : Hashes) : ∃ es c, Ledger H es ∧ CoinText.Paid H es c := by
  obtain ⟨wif, s, a, b, _, ho, ha, _⟩ := C105_texts H 7 false true (by decide) (by decide)
  refine ⟨[⟨WireTx.bytes ⟨1, [], [⟨5000, payScript a.phash⟩], 0⟩, [(5000, s)], false⟩], ⟨_, 0, wif⟩,
    .other _ _ .nil (.cons ⟨a, ha, rfl, rfl⟩ .nil), _, List.mem_singleton_self _, rfl, 0, 5000, s, by decide, rfl, rfl, ho⟩

end Bitforge
