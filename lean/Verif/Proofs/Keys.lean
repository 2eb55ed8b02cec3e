import Verif.Proofs.Base58
import Verif.Proofs.Hex
import Verif.PrivKey
import Verif.Address
import Verif.Spec.Keys

namespace Bitforge
open Spec

theorem find_wif (b : Byte) (n : Network) :
    PrivateKey.findNetwork (.int b.val) "wif_prefix" = .ok n ↔
      ∃ test, b = pick wifVersions test ∧ n = netOf test := by
  have h : ∀ b : Byte, PrivateKey.findNetwork (.int b.val) "wif_prefix" =
      if b = 0x80 then .ok Network.livenet else if b = 0xef then .ok Network.testnet
      else .error .privUnknownNetwork := by decide +kernel
  rw [h]
  constructor
  · intro h
    split at h
    · next hb => simp at h; exact ⟨false, by simp [pick, wifVersions, hb], h.symm⟩
    · split at h
      · next hb => simp at h; exact ⟨true, by simp [pick, wifVersions, hb], h.symm⟩
      · cases h
  · rintro ⟨t, rfl, rfl⟩
    cases t <;> simp [pick, wifVersions, netOf]

theorem find_wif_error (b : Byte) (h : b ≠ 0x80) (h' : b ≠ 0xef) :
    PrivateKey.findNetwork (.int b.val) "wif_prefix" = .error .privUnknownNetwork := by
  have : ∀ b : Byte, PrivateKey.findNetwork (.int b.val) "wif_prefix" =
      if b = 0x80 then .ok Network.livenet else if b = 0xef then .ok Network.testnet
      else .error .privUnknownNetwork := by decide +kernel
  rw [this, if_neg h, if_neg h']

theorem classify_eq (b : Byte) (rest : Bytes) : Address.classifyBytes (b :: rest) =
    if b = 0x00 then .ok (Network.livenet, .publicKey) else if b = 0x6f then .ok (Network.testnet, .publicKey)
    else if b = 0x05 then .ok (Network.livenet, .script) else if b = 0xc4 then .ok (Network.testnet, .script)
    else .error .addrInvalidVersion := by
  have h : ∀ b : Byte, Address.classifyBytes [b] =
    if b = 0x00 then .ok (Network.livenet, .publicKey) else if b = 0x6f then .ok (Network.testnet, .publicKey)
    else if b = 0x05 then .ok (Network.livenet, .script) else if b = 0xc4 then .ok (Network.testnet, .script)
    else .error .addrInvalidVersion := by decide +kernel
  rw [← h b]; rfl

theorem findNetwork_network (n : Network) (a : String) : PrivateKey.findNetwork (.network n) a = .ok n := rfl

theorem make_network (s : Int) (n : Network) (c : Bool) : PrivateKey.make s (.network n) c =
    if 0 < s ∧ s < PrivateKey.keyMax then .ok ⟨s, n, c⟩ else .error .privInvalidSecret := by
  unfold PrivateKey.make PrivateKey.new
  rw [findNetwork_network]
  simp only [Option.getD_some]
  by_cases h : 0 < s ∧ s < PrivateKey.keyMax
  · rw [if_neg (by simpa using h), if_pos h]
  · rw [if_pos h, if_neg h]

theorem make_ok_iff (s : Int) (v : NetValue) (c : Bool) (k : PrivateKey) : PrivateKey.make s v c = .ok k ↔
    ∃ n, PrivateKey.findNetwork v = .ok n ∧ 0 < s ∧ s < PrivateKey.keyMax ∧ k = ⟨s, n, c⟩ := by
  unfold PrivateKey.make PrivateKey.new
  cases h : PrivateKey.findNetwork v with
  | error e => simp
  | ok n =>
    simp only [Option.getD_some, Except.ok.injEq]
    split
    · next h => simp only [reduceCtorEq, false_iff]; rintro ⟨_, _, h1, h2, _⟩; exact h ⟨h1, h2⟩
    · next h =>
      simp only [Decidable.not_not] at h
      simp only [Except.ok.injEq]
      constructor
      · rintro rfl; exact ⟨n, rfl, h.1, h.2, rfl⟩
      · rintro ⟨_, rfl, _, _, rfl⟩; rfl

theorem keyMax_lt : PrivateKey.keyMax < 256 ^ 32 := by decide

theorem decodeInt_toBytes {k : PrivateKey} (h1 : 0 < k.secret) (h2 : k.secret < PrivateKey.keyMax) :
    ((decodeInt k.toBytes : Nat) : Int) = k.secret := by
  unfold PrivateKey.toBytes
  rw [decodeInt_encodeInt, Nat.mod_eq_of_lt]
  · omega
  · have := keyMax_lt; omega

theorem base58Check_iff (H : Hashes) (d : Bytes) (t : Text) :
    Base58Check H d t ↔ decodeBase58h H t = .ok d := by
  rw [decodeBase58h_iff]; exact (b2a_iff t _).symm

theorem fromWif_ok_iff (H : Hashes) (t : Text) (k : PrivateKey) : PrivateKey.fromWif H t = .ok k ↔
    ∃ d : Bytes, decodeBase58h H t = .ok d ∧
      ((d.length = 33 ∧ PrivateKey.fromWifBody d false = .ok k) ∨
       (d.length = 34 ∧ d.getLast? = some 1 ∧ PrivateKey.fromWifBody d.dropLast true = .ok k)) := by
  unfold PrivateKey.fromWif
  cases h : decodeBase58h H t with
  | error e => cases e <;> simp
  | ok d =>
    simp only [Except.ok.injEq, exists_eq_left']
    by_cases h1 : d.length = 33
    · simp [h1]
    · by_cases h2 : d.length = 34
      · simp only [h2]
        by_cases h3 : d.getLast? = some 1 <;> simp [h3]
      · simp [h1, h2]

theorem fromWifBody_cons (b : Byte) (rest : Bytes) (c : Bool) (k : PrivateKey) :
    PrivateKey.fromWifBody (b :: rest) c = .ok k ↔
      ∃ test, b = pick wifVersions test ∧ 0 < decodeInt rest ∧ (decodeInt rest : Int) < PrivateKey.keyMax ∧
        k = ⟨decodeInt rest, netOf test, c⟩ := by
  unfold PrivateKey.fromWifBody
  cases h : PrivateKey.findNetwork (.int b.val) "wif_prefix" with
  | error e =>
    simp only [h]
    simp only [reduceCtorEq, false_iff]
    rintro ⟨t, hb, _⟩
    rw [(find_wif b (netOf t)).2 ⟨t, hb, rfl⟩] at h; cases h
  | ok n =>
    obtain ⟨t, hb, hn⟩ := (find_wif b n).1 h
    simp only [h, make_network]
    constructor
    · intro h
      split at h
      · next hr => simp at h; exact ⟨t, hb, by simpa using hr.1, hr.2, by rw [← h, hn]⟩
      · cases h
    · rintro ⟨t', hb', h1, h2, rfl⟩
      rw [if_pos ⟨by simpa using h1, h2⟩]
      have : n = netOf t' := by
        have := (find_wif b (netOf t')).2 ⟨t', hb', rfl⟩
        rw [h] at this; simpa using this
      rw [this]

theorem pyChr_val (b : Byte) : pyChr b.val = .ok b := by
  simp [pyChr]

theorem toWif_known (H : Hashes) (k : PrivateKey) (t : Bool) (h : k.network = netOf t) :
    k.toWif H = .ok (encodeBase58h H (pick wifVersions t :: k.toBytes ++ if k.compressed then [1] else [])) := by
  unfold PrivateKey.toWif
  have : pyChr k.network.wifPrefix = .ok (pick wifVersions t) := by
    rw [h]; cases t <;> rfl
  rw [this]; rfl

end Bitforge
