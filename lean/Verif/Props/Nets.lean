import Mathlib.Logic.Relation
import Verif.Props.Codec
import Verif.Props.HdPath
import Verif.Props.InOut
import Verif.Props.SignTx
import Verif.Props.ConsensusCases

/-! # C141: the networks are kept apart

What is made from a key or an address of one network, in any number of steps, belongs to that network, as long as each step
keeps the network or writes it.  The steps that lose it are listed below, and so are transactions, which do not know it. -/

namespace Bitforge.Nets
open Spec Transaction

/-- The objects that have a network. -/
inductive Thing
  | priv (k : PrivateKey)
  | pub (k : PublicKey)
  | addr (a : Address)
  | xprv (k : HDPrivateKey)
  | xpub (k : HDPublicKey)

/-- The object belongs to the network, and so does the key in it. -/
def Thing.On (n : Network) : Thing → Prop
  | .priv k => k.network = n
  | .pub k => k.network = n
  | .addr a => a.network = n
  | .xprv k => k.network = n ∧ k.privkey.network = n
  | .xpub k => k.network = n ∧ k.pubkey.network = n

/-- One call of a method of the library that makes an object from another, or one object written and read again in a form that
shows the network. -/
inductive Step (H : Hashes) : Thing → Thing → Prop
  | privPub {k p} : PrivateKey.toPublicKey k = .ok p → Step H (.priv k) (.pub p)
  | privAddr {k a} : PrivateKey.toAddress H k = .ok a → Step H (.priv k) (.addr a)
  | pubAddr {k a} : PublicKey.toAddress H k = .ok a → Step H (.pub k) (.addr a)
  | xprvPriv {k} : Step H (.xprv k) (.priv (HDPrivateKey.toPrivateKey k))
  | xprvPub {k p} : HDPrivateKey.toPublicKey k = .ok p → Step H (.xprv k) (.pub p)
  | xprvXpub {k x} : HDPrivateKey.toHdPublicKey H k = .ok x → Step H (.xprv k) (.xpub x)
  | xprvChild {k i h c} : HDPrivateKey.derive k i h = .ok c → Step H (.xprv k) (.xprv c)
  | xpubPub {k} : Step H (.xpub k) (.pub (HDPublicKey.toPublicKey k))
  | xpubChild {k i h c} : HDPublicKey.derive H k i h = .ok c → Step H (.xpub k) (.xpub c)
  | wif {k t l} : PrivateKey.toWif H k = .ok t → PrivateKey.fromWif H t = .ok l → Step H (.priv k) (.priv l)
  | addrBytes {a b c} : Address.toBytes a = .ok b → Address.fromBytes b = .ok c → Step H (.addr a) (.addr c)
  | addrHex {a t c} : Address.toHex a = .ok t → Address.fromHex t = .ok c → Step H (.addr a) (.addr c)
  | addrText {a t c} : Address.toString H a = .ok t → Address.fromString H t = .ok c → Step H (.addr a) (.addr c)
  | xprvText {k t l} : HDPrivateKey.toString H k = .ok t → HDPrivateKey.fromString H t = .ok l → Step H (.xprv k) (.xprv l)
  | xpubText {k t l} : HDPublicKey.toString H k = .ok t → HDPublicKey.fromString H t = .ok l → Step H (.xpub k) (.xpub l)

theorem all_iff (n : Network) : n ∈ Network.all ↔ ∃ test, n = netOf test := by
  simp only [Network.all, List.mem_cons, List.not_mem_nil, or_false]
  constructor
  · rintro (rfl | rfl)
    exacts [⟨false, rfl⟩, ⟨true, rfl⟩]
  · rintro ⟨test, rfl⟩
    cases test
    exacts [.inl rfl, .inr rfl]

theorem new_network {pair : Int × Int} {n : Network} {c : Bool} {p : PublicKey}
    (h : PublicKey.new pair (.network n) c = .ok p) : p.network = n := by
  unfold PublicKey.new PublicKey.findNetwork Network.find Network.find? at h
  simp only at h
  split at h <;> cases h
  rfl

theorem public_network {k : PrivateKey} {p : PublicKey} (h : k.toPublicKey = .ok p) : p.network = k.network := by
  unfold PrivateKey.toPublicKey PublicKey.fromPrivateKey at h
  split at h
  · cases h
  · cases h
  · exact new_network h

theorem address_network {H : Hashes} {k : PublicKey} {a : Address} (h : k.toAddress H = .ok a) : a.network = k.network := by
  unfold PublicKey.toAddress at h
  cases hb : k.toBytes with
  | error e => rw [hb] at h; cases h
  | ok b =>
    rw [hb] at h
    replace h : Address.fromPublicKeyBytes H b k.network = .ok a := h
    rw [(C15_from_key_or_script H b k.network).1] at h
    cases h
    rfl

theorem xpub_new {H : Hashes} {p : PublicKey} {chain : Bytes} {d i : Int} {f : Nat} {n : Network} {x : HDPublicKey}
    (h : HDPublicKey.new H p chain d i f n = .ok x) : x.network = n ∧ x.pubkey = p := by
  unfold HDPublicKey.new at h
  split at h <;> cases h
  exact ⟨rfl, rfl⟩

theorem xprv_new {H : Hashes} {p : PrivateKey} {chain : Bytes} {d i : Int} {f : Nat} {n : Network} {x : HDPrivateKey}
    (h : HDPrivateKey.new H p chain d i f n = .ok x) : x.network = n ∧ x.privkey = p := by
  unfold HDPrivateKey.new at h
  split at h
  · cases h
  · split at h <;> cases h
    exact ⟨rfl, rfl⟩

theorem child_network {H : Hashes} {k c : HDPublicKey} {i : Int} {hard : Bool} (h : k.derive H i hard = .ok c) :
    c.network = k.network ∧ c.pubkey.network = k.network := by
  unfold HDPublicKey.derive at h
  simp only at h
  split at h
  · cases h
  · simp only [bind, Except.bind] at h
    split at h
    · cases h
    split at h
    · cases h
    split at h
    · cases h
    split at h
    · cases h
    split at h
    · cases h
    split at h
    · cases h
    next h5 =>
      obtain ⟨g1, g2⟩ := xpub_new h
      exact ⟨g1, g2 ▸ new_network h5⟩

theorem wif_versions {x y : Bool} (e : pick wifVersions x = pick wifVersions y) : netOf y = netOf x := by
  have : ∀ x y, pick wifVersions x = pick wifVersions y → y = x := by decide
  exact congrArg netOf (this x y e)

theorem wif_network {H : Hashes} {k l : PrivateKey} {t : Text} (hn : k.network ∈ Network.all) (h : k.toWif H = .ok t)
    (g : PrivateKey.fromWif H t = .ok l) : l.network = k.network := by
  obtain ⟨test, ht⟩ := (all_iff _).1 hn
  rw [toWif_known H k test ht] at h
  obtain rfl := Except.ok.inj h
  obtain ⟨s, test', c, -, -, rfl, body, hl, -, hb⟩ := (C13_from_wif_iff H _ l).1 g
  have e := (C07_checksum H _ _).2 hb
  rw [C07_roundtrip] at e
  have e := (List.cons.inj (Except.ok.inj e)).1
  rw [ht]
  exact wif_versions e

theorem version_network {a c : Address} (ha : a.network ∈ Network.all) (hc : c.network ∈ Network.all)
    (h : a.toBytes = c.toBytes) : c.network = a.network := by
  obtain ⟨h1, m, t1⟩ := a
  obtain ⟨h2, n, t2⟩ := c
  obtain ⟨x, rfl⟩ := (all_iff _).1 ha
  obtain ⟨y, rfl⟩ := (all_iff _).1 hc
  have hv : ∀ (p : Bytes) (z : Bool) (ty : AddrType), Address.toBytes ⟨p, netOf z, ty⟩ =
      .ok (pick (if ty = .script then p2shVersions else p2pkhVersions) z :: p) := by
    intro p z ty
    cases z <;> cases ty <;> rfl
  rw [hv, hv] at h
  have h := (List.cons.inj (Except.ok.inj h)).1
  have : ∀ (x y : Bool) (t1 t2 : AddrType), pick (if t1 = .script then p2shVersions else p2pkhVersions) x =
      pick (if t2 = .script then p2shVersions else p2pkhVersions) y → y = x := by
    intro x y t1 t2
    cases x <;> cases y <;> cases t1 <;> cases t2 <;> decide
  exact congrArg netOf (this x y t1 t2 h)

theorem read_network {b : Bytes} {c : Address} (h : Address.fromBytes b = .ok c) :
    c.network ∈ Network.all ∧ c.toBytes = .ok b := by
  obtain ⟨p, test, s, h1, rfl⟩ := (C16_from_bytes_iff b c).1 h
  exact ⟨(all_iff _).2 ⟨test, rfl⟩, (C15_to_bytes p h1.1 test s b).2 h1⟩

theorem step_on {H : Hashes} {n : Network} (hn : n ∈ Network.all) {x y : Thing} (h : Step H x y) (hx : x.On n) : y.On n := by
  cases h with
  | privPub h => exact (public_network h).trans hx
  | privAddr h =>
    unfold PrivateKey.toAddress at h
    revert h
    rename_i k a
    cases hp : k.toPublicKey with
    | error e => intro h; cases h
    | ok p => exact fun h => (address_network h).trans ((public_network hp).trans hx)
  | pubAddr h => exact (address_network h).trans hx
  | xprvPriv => exact hx.2
  | xprvPub h => exact (public_network h).trans hx.2
  | xprvXpub h =>
    unfold HDPrivateKey.toHdPublicKey HDPublicKey.fromHdPrivateKey at h
    split at h
    · cases h
    next hp =>
      obtain ⟨g1, g2⟩ := xpub_new h
      exact ⟨g1.trans hx.1, g2 ▸ (public_network hp).trans hx.2⟩
  | xprvChild h => exact absurd h (by
      unfold HDPrivateKey.derive
      split
      · rename_i k i _ _ _
        cases asciiSum [[0], k.privkey.toBytes, intToBytes k.index 4] <;> exact fun e => nomatch e
      · rename_i k i _ _ _
        cases k.privkey.toPublicKey with
        | error e => exact fun e => nomatch e
        | ok p => cases hb : p.toBytes <;> simp [hb, bind, Except.bind])
  | xpubPub => exact hx.2
  | xpubChild h =>
    obtain ⟨g1, g2⟩ := child_network h
    exact ⟨g1.trans hx.1, g2.trans hx.1⟩
  | wif h g => exact (wif_network (hx.symm ▸ hn) h g).trans hx
  | addrBytes h g =>
    obtain ⟨g1, g2⟩ := read_network g
    exact (version_network (hx.symm ▸ hn) g1 (h.trans g2.symm)).trans hx
  | addrHex h g =>
    rename_i a t c
    unfold Address.toHex at h
    split at h
    · cases h
    next b hb =>
      obtain rfl := Except.ok.inj h
      unfold Address.fromHex at g
      rw [decodeHex_encodeHex] at g
      obtain ⟨g1, g2⟩ := read_network g
      exact (version_network (hx.symm ▸ hn) g1 (hb.trans g2.symm)).trans hx
  | addrText h g =>
    rename_i a t c
    unfold Address.toString at h
    split at h
    · cases h
    next b hb =>
      obtain rfl := Except.ok.inj h
      unfold Address.fromString at g
      rw [C07_roundtrip] at g
      obtain ⟨g1, g2⟩ := read_network g
      exact (version_network (hx.symm ▸ hn) g1 (hb.trans g2.symm)).trans hx
  | xprvText h _ =>
    rw [C57_private_refuted H _ (hx.1.symm ▸ hn)] at h
    cases h
  | xpubText h _ =>
    rw [C57_public_refuted H _ (hx.1.symm ▸ hn)] at h
    cases h

/-- C141, part that holds: whatever is made from an object of a network in any number of steps belongs to the same network.
Missing: the steps that lose the network, and transactions, see the refutations. -/
theorem C141_kept_partial (H : Hashes) (n : Network) (hn : n ∈ Network.all) (x y : Thing)
    (h : Relation.ReflTransGen (Step H) x y) (hx : x.On n) : y.On n := by
  induction h with
  | refl => exact hx
  | tail _ h ih => exact step_on hn h ih

/-- C141. What is read as an extended key belongs to a network of the library, together with the key in it. -/
theorem C141_read (H : Hashes) (t : Text) :
    (∀ k, HDPrivateKey.fromString H t = .ok k → ∃ n ∈ Network.all, (Thing.xprv k).On n) ∧
    ∀ k, HDPublicKey.fromString H t = .ok k → ∃ n ∈ Network.all, (Thing.xpub k).On n := by
  constructor
  · intro k h
    unfold HDPrivateKey.fromString at h
    split at h
    · cases h
    · unfold HDPrivateKey.fromData at h
      simp only at h
      split at h
      · cases h
      next n hn =>
        split at h
        · cases h
        next p hp =>
          obtain ⟨g1, g2⟩ := xprv_new h
          refine ⟨n, (C10_sound _ (fun m e => NetValue.noConfusion e) _ n hn).1, g1, ?_⟩
          rw [g2]
          rw [C14_from_bytes_iff] at hp
          split at hp
          · cases hp
          · split at hp <;> cases hp
            rfl
  · intro k h
    unfold HDPublicKey.fromString at h
    split at h
    · cases h
    · unfold HDPublicKey.fromData at h
      simp only at h
      split at h
      · cases h
      next n hn =>
        split at h
        · cases h
        next p hp =>
          obtain ⟨g1, g2⟩ := xpub_new h
          refine ⟨n, (C10_sound _ (fun m e => NetValue.noConfusion e) _ n hn).1, g1, ?_⟩
          rw [g2]
          unfold PublicKey.fromBytes at hp
          split at hp
          · split at hp <;> cases hp
          · exact new_network hp

/-- C141 is false of the code: bytes and hexadecimal digits of keys do not tell the network, and are read as keys of the main
network unless the caller says otherwise. -/
theorem C141_bytes_refuted (k : PrivateKey) (h1 : 0 < k.secret) (h2 : k.secret < secpN) (p : PublicKey)
    (hc : OnSecp p.pair.1 p.pair.2) (hx : reduced p.pair.1) (hy : reduced p.pair.2) :
    (∃ l, PrivateKey.fromBytes k.toBytes = .ok l ∧ l.network = .livenet ∧ l.secret = k.secret) ∧
    (∃ l, PrivateKey.fromHex k.toHex = .ok l ∧ l.network = .livenet ∧ l.secret = k.secret) ∧
    ∃ b q, p.toBytes = .ok b ∧ PublicKey.fromBytes ⟨.str, b⟩ = .ok q ∧ q.network = .livenet ∧ q.pair = p.pair := by
  obtain ⟨g1, g2⟩ := C14_roundtrip ⟨k.secret, .livenet, true⟩ h1 h2
  obtain ⟨b, hb, hs⟩ := C18_to_bytes p hx hy
  exact ⟨⟨_, g1, rfl, rfl⟩, ⟨_, g2, rfl, rfl⟩, b, _, hb, C18_from_sec _ _ _ .livenet b hc hx hy hs, rfl, rfl⟩

/-- C141 is false of the code: an extended key made with a key of the test network belongs to the main network, unless the
caller says it twice, and its children and addresses do too. -/
theorem C141_extended_refuted (H : Hashes) (k : PrivateKey) (hk : k.Good) (chain : Bytes) :
    ∃ x y, HDPrivateKey.new H k chain = .ok x ∧ x.network = .livenet ∧ x.privkey = k ∧ x.toHdPublicKey H = .ok y ∧
      y.pubkey.network = k.network ∧ ∀ i c, y.derive H i = .ok c → c.pubkey.network = .livenet := by
  obtain ⟨p, hp, hv, hn, -⟩ := good_public k hk
  obtain ⟨f, -, h1, h2⟩ := C64_root H k p chain hp hv.2.1 hv.2.2
  refine ⟨_, _, h1, rfl, rfl, ?_, hn, fun i c h => (child_network (k := ⟨p, chain, 0, 0, 0, .livenet, f⟩) h).2⟩
  unfold HDPrivateKey.toHdPublicKey HDPublicKey.fromHdPrivateKey
  simp only [hp]
  exact h2

/-- The signer does not look at the network of a key. -/
def Blind (signer : Signer) : Prop := ∀ j k n, signer j { k with network := n } = signer j k

theorem keySigner_blind (nonces : Nat → Nat) : Blind (keySigner nonces) := fun _ _ _ => rfl

/-- The same key on a network that is chosen for it. -/
def moved (f : PrivateKey → Network) (k : PrivateKey) : PrivateKey := { k with network := f k }

theorem moved_public (f : PrivateKey → Network) (k : PrivateKey) :
    (moved f k).toPublicKey = k.toPublicKey.map fun p => { p with network := f k } := by
  unfold PrivateKey.toPublicKey PublicKey.fromPrivateKey moved
  cases Ecdsa.publicPairForSecretExponent secp secpG k.secret with
  | error e => rfl
  | ok o =>
    cases o with
    | none => rfl
    | some pair =>
      simp only [PublicKey.new, PublicKey.findNetwork, Network.find, Network.find?]
      split <;> rfl

/-- C141 is false of the code: transactions can mix the networks.  Outputs and inputs made from an address are the same on
every network. -/
theorem C141_outputs_refuted (H : Hashes) (amount ix seq : Int) (id : Text) (a : Address) (n : Network) (ks : List PrivateKey)
    (f : PrivateKey → Network) (i : Input) :
    AddressOutput.create amount { a with network := n } = AddressOutput.create amount a ∧
    AddressInput.create id ix { a with network := n } seq = AddressInput.create id ix a seq ∧
    AddressInput.canSign H i (ks.map (moved f)) = AddressInput.canSign H i ks := by
  refine ⟨rfl, rfl, ?_⟩
  match ks with
  | [] => rfl
  | [k] =>
    have e : (moved f k).toAddress H = (k.toAddress H).map fun a => { a with network := f k } := by
      unfold PrivateKey.toAddress
      rw [moved_public]
      cases k.toPublicKey with
      | error e => rfl
      | ok p =>
        simp only [Except.map, bind, Except.bind]
        unfold PublicKey.toAddress PublicKey.toBytes
        simp only
        cases publicPairToSec p.pair p.compressed with
        | error e => rfl
        | ok b =>
          simp only [bind, Except.bind]
          rw [(C15_from_key_or_script H b _).1, (C15_from_key_or_script H b _).1]
    unfold AddressInput.canSign
    simp only [List.map_cons, List.map_nil, e]
    cases k.toAddress H <;> rfl
  | _ :: _ :: _ => rfl

theorem signatures_moved {signer : Signer} (hb : Blind signer) (f : PrivateKey → Network) (payload : Bytes) (s : Int) :
    ∀ (ks : List PrivateKey) (n : Nat),
      Input.signatures signer payload s n (ks.map (moved f)) = Input.signatures signer payload s n ks
  | [], _ => rfl
  | k :: ks, n => by
    have e : Input.signature signer n (moved f k) payload s = Input.signature signer n k payload s := by
      unfold Input.signature moved
      rw [hb]
    show Input.signatures signer payload s n (moved f k :: ks.map (moved f)) = _
    unfold Input.signatures
    rw [e, signatures_moved hb f payload s ks]

/-- C141 is false of the code: keys of any network sign for an address of any network, and make the same transaction. -/
theorem C141_sign_refuted (H : Hashes) (nonces : Nat → Nat) (t : Transaction) (ks : List PrivateKey) (f : PrivateKey → Network)
    (i s : Int) : t.sign H (keySigner nonces) (ks.map (moved f)) i s = t.sign H (keySigner nonces) ks i s := by
  have hb := keySigner_blind nonces
  generalize keySigner nonces = signer at hb
  have h1 : ∀ (x : Input) (payload : Bytes),
      x.signAddress signer (ks.map (moved f)) payload s = x.signAddress signer ks payload s := by
    intro x payload
    match ks with
    | [] => rfl
    | [k] =>
      have e : Input.signature signer 0 (moved f k) payload s = Input.signature signer 0 k payload s := by
        unfold Input.signature moved
        rw [hb]
      unfold Input.signAddress
      simp only [List.map_cons, List.map_nil, moved_public, e]
      cases k.toPublicKey <;> rfl
    | _ :: _ :: _ => rfl
  have h2 : ∀ (x : Input) (payload : Bytes), x.sign signer (ks.map (moved f)) payload s = x.sign signer ks payload s := by
    intro x payload
    unfold Input.sign
    rw [h1]
    unfold Input.signScript
    rw [signatures_moved hb]
  unfold Transaction.sign
  simp only [h2]

theorem expected_livenet {is : List Instruction} : ∀ {ps : List PublicKey}, is.mapM (fun i => publicKeyOf i.data) = .ok ps →
    ∀ p ∈ ps, p.network = .livenet := by
  induction is with
  | nil =>
    intro ps h p hp
    cases h
    cases hp
  | cons i is ih =>
    intro ps h p hp
    rw [List.mapM_cons] at h
    cases h1 : publicKeyOf i.data with
    | error e => rw [h1] at h; cases h
    | ok q =>
      rw [h1] at h
      simp only [bind, Except.bind] at h
      split at h
      · cases h
      next qs hqs =>
        obtain rfl : q :: qs = ps := Except.ok.inj h
        rcases List.mem_cons.1 hp with rfl | hp
        · unfold publicKeyOf at h1
          split at h1
          · cases h1
          · unfold PublicKey.fromBytes at h1
            split at h1
            · split at h1 <;> cases h1
            · exact new_network h1
        · exact ih hqs p hp

theorem allExpected_livenet {expected : List PublicKey} (hl : ∀ p ∈ expected, p.network = .livenet) :
    ∀ {ks : List PrivateKey}, MultisigInput.allExpected expected ks = .ok true → ∀ k ∈ ks, k.network = .livenet := by
  intro ks
  induction ks with
  | nil => exact fun _ k hk => nomatch hk
  | cons l ls ih =>
    intro h k hk
    unfold MultisigInput.allExpected at h
    split at h
    · cases h
    next p hp =>
      split at h
      next hm =>
        rcases List.mem_cons.1 hk with rfl | hk
        · exact (public_network hp).symm.trans (hl p hm)
        · exact ih h k hk
      · cases h

/-- C141 is false of the code in the other direction too: keys of the test network are never said to be able to sign for several
keys, although they sign as well as others (`C141_sign_refuted`). -/
theorem C141_several_refuted (x : Input) (ks : List PrivateKey) (k : PrivateKey) (hk : k ∈ ks) (hn : k.network ≠ .livenet) :
    MultisigInput.canSign x ks ≠ .ok true := by
  intro h
  unfold MultisigInput.canSign at h
  split at h
  · split at h
    · cases h
    · split at h
      · cases h
      · split at h
        · cases h
        next expected he => exact hn (allExpected_livenet (expected_livenet he) h k hk)
  · cases h

/-- A key of the test network, and its address there after two texts. -/
example : ∃ p a t b, PrivateKey.toPublicKey ⟨1, .testnet, true⟩ = .ok p ∧ p.toAddress .toy = .ok a ∧
    a.toString .toy = .ok t ∧ Address.fromString .toy t = .ok b ∧ b.network = .testnet := by
  obtain ⟨p, hp, hv, hn, -⟩ := good_public ⟨1, .testnet, true⟩ (by unfold PrivateKey.Good; decide)
  obtain ⟨s, hs, -⟩ := C18_to_bytes p hv.2.1 hv.2.2
  have ha : p.toAddress .toy = .ok ⟨Hashes.toy.ripemd160 (Hashes.toy.sha256 s), .testnet, .publicKey⟩ := by
    unfold PublicKey.toAddress
    rw [hs]
    exact (C15_from_key_or_script .toy s p.network).1.trans (by rw [hn])
  obtain ⟨-, ⟨t, h1, h2⟩, -⟩ := C15_roundtrip .toy _ (Hashes.toy.ripemd160_length (Hashes.toy.sha256 s)) true false
  refine ⟨p, _, t, _, hp, ha, h1, h2, ?_⟩
  exact C141_kept_partial .toy .testnet (by decide) (.priv ⟨1, .testnet, true⟩) (.addr _)
    (((Relation.ReflTransGen.single (.privPub hp)).tail (.pubAddr ha)).tail (.addrText h1 h2)) rfl

/-- `bothInput` can be signed by its keys on the main network. -/
example : MultisigInput.canSign bothInput [twoKey, oneKey] = .ok true ∧
    MultisigInput.canSign bothInput ([twoKey, oneKey].map (moved fun _ => .testnet)) ≠ .ok true :=
  ⟨both_create.2.2.2, C141_several_refuted _ _ _ (List.mem_cons_self ..) (by decide)⟩

end Bitforge.Nets
