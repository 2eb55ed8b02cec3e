import Verif.Spec.Bip32Path
import Verif.Props.HdKey
import Verif.Proofs.SecpReduced
import Verif.Proofs.Ecdsa

/-! # C111: the public keys of a path -/

namespace Bitforge
open Spec

/-- Successive calls of `derive`: `k.derive(i₁).derive(i₂)…`. -/
def derivePath (H : Hashes) (k : HDPublicKey) : List Int → Except Err HDPublicKey
  | [] => .ok k
  | i :: is => match k.derive H i with
    | .error e => .error e
    | .ok c => derivePath H c is

/-- What the children of an extended public key depend on. -/
def HDPublicKey.node (k : HDPublicKey) : Node := ⟨k.chain, k.pubkey.pair.1, k.pubkey.pair.2⟩

/-- A compressed key with reduced coordinates, on the curve, and its own fingerprint. -/
structure HDPublicKey.Proper (H : Hashes) (k : HDPublicKey) : Prop where
  compressed : k.pubkey.compressed = true
  x : reduced k.pubkey.pair.1
  y : reduced k.pubkey.pair.2
  on : OnSecp k.pubkey.pair.1 k.pubkey.pair.2
  fingerprint : Fingerprint H k.pubkey.pair.1 k.pubkey.pair.2 true k.fingerprint

/-- A child number of 32 bits. -/
def Number (i : Int) : Prop := 0 ≤ i ∧ i < 2 ^ 32

theorem derivePath_cons {H : Hashes} {k c : HDPublicKey} {i : Int} {is : List Int} :
    derivePath H k (i :: is) = .ok c ↔ ∃ c1, k.derive H i = .ok c1 ∧ derivePath H c1 is = .ok c := by
  rw [derivePath]
  cases k.derive H i with
  | error e => simp
  | ok c1 => simp

theorem isPoint_on {x y : Int} {P : SecpGroup} (h : IsPoint x y P) : OnSecp x y :=
  (onSecp_iff x y).2 ((containsPoint_iff_nonsingular secp_regular x y).2 h.1)

theorem bigEndian_unique {w n : Nat} {b b' : Bytes} (h : BigEndian w n b) (h' : BigEndian w n b') : b = b' :=
  beValue_inj _ _ (h.1.trans h'.1.symm) (h.2.trans h'.2.symm)

theorem sec_compressed_unique {x y : Nat} {b b' : Bytes} (h : Sec x y true b) (h' : Sec x y true b') : b = b' := by
  obtain ⟨bx, l, v, h⟩ := h
  obtain ⟨bx', l', v', h'⟩ := h'
  rw [if_pos rfl] at h h'
  rw [h, h', beValue_inj bx bx' (l.trans l'.symm) (v.trans v'.symm)]

theorem fingerprint_unique {H : Hashes} {x y : Int} {f f' : Nat} (h : Fingerprint H x y true f)
    (h' : Fingerprint H x y true f') : f = f' := by
  obtain ⟨b, s, _, e⟩ := h
  obtain ⟨b', s', _, e'⟩ := h'
  rw [sec_compressed_unique s s'] at e
  exact e.symm.trans e'

theorem isPoint_unique {x y : Int} {P P' : SecpGroup} (h : IsPoint x y P) (h' : IsPoint x y P') : P = P' := by
  obtain ⟨_, rfl⟩ := h
  obtain ⟨_, rfl⟩ := h'
  rfl

theorem ckdPub_unique {H : Hashes} {chain chain' chain'' : Bytes} {x y : Int} {i : Nat} {P P' : SecpGroup}
    (h : CkdPub H chain x y i P chain') (h' : CkdPub H chain x y i P' chain'') : P = P' ∧ chain' = chain'' := by
  obtain ⟨sec, ib, Q, hs, hi, hQ, rfl, rfl⟩ := h
  obtain ⟨sec', ib', Q', hs', hi', hQ', rfl, rfl⟩ := h'
  rw [sec_compressed_unique hs hs', bigEndian_unique hi hi', isPoint_unique hQ hQ']
  exact ⟨rfl, rfl⟩

/-- A child number names one child. -/
theorem child_unique {H : Hashes} {p c c' : Node} {i : Nat} (h : Child H p i c) (h' : Child H p i c') : c = c' := by
  obtain ⟨P, hk, hP, hx, hy⟩ := h
  obtain ⟨P', hk', hP', hx', hy'⟩ := h'
  obtain ⟨rfl, hc⟩ := ckdPub_unique hk hk'
  obtain ⟨c1, c2, c3⟩ := c
  obtain ⟨d1, d2, d3⟩ := c'
  simp only at hc hP hP' hx hy hx' hy'
  rw [hc, isPoint_x_unique hP hP' hx hx', isPoint_y_unique hP hP' hy hy']

/-- A path names one key. -/
theorem path_unique {H : Hashes} {p r r' : Node} {is : List Nat} (h : Path H p is r) (h' : Path H p is r') : r = r' := by
  induction h with
  | here => cases h'; rfl
  | step hc _ ih =>
    cases h' with
    | step hc' hr' => exact ih (child_unique hc hc' ▸ hr')

/-- One call of `derive` makes the child whose number is the index of the parent. -/
theorem derive_iff (H : Hashes) (k c : HDPublicKey) (i : Int) (hk : k.Proper H) (hi : Number k.index) :
    k.derive H i = .ok c ↔ ∃ n f, Child H k.node k.index.toNat n ∧ Fingerprint H n.x n.y true f ∧
      c = ⟨⟨(n.x, n.y), k.network, true⟩, n.chain, k.depth + 1, i, k.fingerprint, k.network, f⟩ := by
  obtain ⟨P, chain', hck, hne, hz⟩ := C58_public_partial H k i hk.compressed hk.x hk.y hk.on hi
  constructor
  · intro h
    by_cases h0 : P = 0
    · obtain ⟨e, he⟩ := hz h0
      rw [he] at h; cases h
    · obtain ⟨x, y, f, hx, hy, hP, hF, hd⟩ := hne h0
      rw [hd] at h
      cases h
      exact ⟨⟨chain', x, y⟩, f, ⟨P, hck, hP, hx, hy⟩, hF, rfl⟩
  · rintro ⟨⟨nc, nx, ny⟩, f, ⟨P', hck', hP', hx', hy'⟩, hF', rfl⟩
    obtain ⟨rfl, rfl⟩ := ckdPub_unique hck hck'
    obtain ⟨x, y, f', hx, hy, hP, hF, hd⟩ := hne (isPoint_ne_zero hP')
    simp only at hP' hx' hy' hF'
    obtain rfl := isPoint_x_unique hP hP' hx hx'
    obtain rfl := isPoint_y_unique hP hP' hy hy'
    rw [hd, fingerprint_unique hF hF']

theorem derive_proper {H : Hashes} {k c : HDPublicKey} {i : Int} (hk : k.Proper H) (hi : Number k.index)
    (h : k.derive H i = .ok c) : c.Proper H ∧ Child H k.node k.index.toNat c.node ∧ c.index = i ∧
      c.depth = k.depth + 1 ∧ c.network = k.network ∧ c.pubkey.network = k.network ∧ c.parent = k.fingerprint := by
  obtain ⟨n, f, hn, hf, rfl⟩ := (derive_iff H k c i hk hi).1 h
  obtain ⟨P, hck, hP, hx, hy⟩ := hn
  exact ⟨⟨rfl, hx, hy, isPoint_on hP, hf⟩, ⟨P, hck, hP, hx, hy⟩, rfl, rfl, rfl, rfl, rfl⟩

/-- `c` is the key that BIP 32 has at the path `q` below `k`, but for the child number: its node, its depth, the fingerprint
of its parent, the network of `k`. -/
structure At (H : Hashes) (k : HDPublicKey) (q : List Nat) (c : HDPublicKey) : Prop where
  proper : c.Proper H
  node : Path H k.node q c.node
  depth : c.depth = k.depth + q.length
  parent : ∃ m, Path H k.node q.dropLast m ∧ Fingerprint H m.x m.y true c.parent
  network : c.network = k.network ∧ c.pubkey.network = k.network

theorem at_unique {H : Hashes} {k c c' : HDPublicKey} {q : List Nat} (h : At H k q c) (h' : At H k q c')
    (hi : c.index = c'.index) : c = c' := by
  have hn := path_unique h.node h'.node
  obtain ⟨m, hm, hf⟩ := h.parent
  obtain ⟨m', hm', hf'⟩ := h'.parent
  obtain rfl := path_unique hm hm'
  have hp := fingerprint_unique hf hf'
  have h1 := h.proper; have h2 := h'.proper
  have hd := h.depth.trans h'.depth.symm
  have hN := h.network; have hN' := h'.network
  obtain ⟨⟨⟨x, y⟩, net, comp⟩, ch, dp, ix, pa, nt, fp⟩ := c
  obtain ⟨⟨⟨x', y'⟩, net', comp'⟩, ch', dp', ix', pa', nt', fp'⟩ := c'
  simp only [HDPublicKey.node, Node.mk.injEq] at hn
  obtain ⟨rfl, rfl, rfl⟩ := hn
  simp only at hp hd hN hN' hi
  have e1 := h1.compressed; have e2 := h2.compressed
  have e3 := fingerprint_unique h1.fingerprint h2.fingerprint
  simp only at e1 e2 e3
  obtain ⟨rfl, rfl⟩ := hN
  obtain ⟨hN1, hN2⟩ := hN'
  subst hp hd hi e1 e2 e3
  rw [hN1, hN2]

/-- C111, part that holds: what `k.derive(i₁)…derive(iₙ).derive(j)` returns is the BIP 32 key at the path
`index(k)/i₁/…/iₙ` below `k`, labelled with the number `j`; and it returns whenever that key exists.  Missing: the path that
was asked for, `i₁/…/iₙ/j` (see `C111_path_refuted`). -/
theorem C111_path_partial (H : Hashes) (k : HDPublicKey) (hk : k.Proper H) (hi : Number k.index) (is : List Int)
    (his : ∀ i ∈ is, Number i) (j : Int) (c : HDPublicKey) :
    derivePath H k (is ++ [j]) = .ok c ↔ c.index = j ∧ At H k ((k.index :: is).map Int.toNat) c := by
  induction is generalizing k with
  | nil =>
    have e : derivePath H k ([] ++ [j]) = .ok c ↔ k.derive H j = .ok c := by
      rw [List.nil_append, derivePath_cons]
      simp [derivePath]
    rw [e]
    constructor
    · intro h
      obtain ⟨hp, hn, h1, h2, h3, h4, h5⟩ := derive_proper hk hi h
      exact ⟨h1, hp, .step hn (.here _), h2, ⟨k.node, .here _, by rw [h5]; exact hk.fingerprint⟩, h3, h4⟩
    · rintro ⟨rfl, h⟩
      have hn := h.node
      cases hn with
      | step hc hr =>
        cases hr
        have hd := (derive_iff H k ⟨⟨(c.node.x, c.node.y), k.network, true⟩, c.node.chain, k.depth + 1, c.index, k.fingerprint,
          k.network, c.fingerprint⟩ c.index hk hi).2 ⟨c.node, c.fingerprint, hc, h.proper.fingerprint, rfl⟩
        rw [hd]
        obtain ⟨hp, hn, h1, h2, h3, h4, h5⟩ := derive_proper hk hi hd
        congr 1
        exact at_unique ⟨hp, .step hn (.here _), h2, ⟨k.node, .here _, by rw [h5]; exact hk.fingerprint⟩, h3, h4⟩ h rfl
  | cons i is ih =>
    have hi' : Number i := his i (by simp)
    have his' : ∀ x ∈ is, Number x := fun x hx => his x (by simp [hx])
    constructor
    · intro h
      obtain ⟨c1, hd, h⟩ := derivePath_cons.1 h
      obtain ⟨hp, hn, h1, h2, h3, h4, h5⟩ := derive_proper hk hi hd
      obtain ⟨e, a⟩ := (ih c1 hp (h1 ▸ hi') his').1 h
      rw [h1] at a
      obtain ⟨m, hm, hf⟩ := a.parent
      refine ⟨e, a.proper, .step hn a.node, ?_, ⟨m, ?_, hf⟩, by rw [← h3]; exact a.network⟩
      · rw [a.depth, h2]
        simp only [List.map_cons, List.length_cons]
        push_cast
        ring
      · simp only [List.map_cons, List.dropLast_cons_cons] at hm ⊢
        exact .step hn hm
    · rintro ⟨e, a⟩
      have hn := a.node
      cases hn with
      | @step _ n1 _ _ _ hc hr =>
        have hc' := hc
        obtain ⟨P, hck, hP, hx, hy⟩ := hc'
        obtain ⟨f, _, hF⟩ := fingerprint_ok H ⟨(n1.x, n1.y), k.network, true⟩ hx hy
        have hd := (derive_iff H k ⟨⟨(n1.x, n1.y), k.network, true⟩, n1.chain, k.depth + 1, i, k.fingerprint,
          k.network, f⟩ i hk hi).2 ⟨n1, f, hc, hF, rfl⟩
        obtain ⟨hp, hn, h1, h2, h3, h4, h5⟩ := derive_proper hk hi hd
        refine derivePath_cons.2 ⟨_, hd, (ih _ hp hi' his').2 ⟨e, a.proper, hr, ?_, ?_, a.network⟩⟩
        · rw [a.depth]
          simp only [List.map_cons, List.length_cons]
          push_cast
          ring
        · obtain ⟨m, hm, hf⟩ := a.parent
          simp only [List.map_cons, List.dropLast_cons_cons] at hm ⊢
          cases hm with
          | step hc1 hr1 => exact ⟨m, child_unique hc1 hc ▸ hr1, hf⟩

/-- C111, part that holds: a key whose path below `k` begins with the index of `k` can be reached, by the calls for the rest
of the path and one more call, with any number. -/
theorem C111_reach_partial (H : Hashes) (k : HDPublicKey) (hk : k.Proper H) (hi : Number k.index) (is : List Int)
    (his : ∀ i ∈ is, Number i) (n : Node) (hn : Path H k.node ((k.index :: is).map Int.toNat) n) (j : Int) :
    ∃ c, derivePath H k (is ++ [j]) = .ok c ∧ c.node = n := by
  induction is generalizing k with
  | nil =>
    cases hn with
    | step hc hr =>
      cases hr
      have hc' := hc
      obtain ⟨P, hck, hP, hx, hy⟩ := hc'
      obtain ⟨f, _, hF⟩ := fingerprint_ok H ⟨(n.x, n.y), k.network, true⟩ hx hy
      exact ⟨_, derivePath_cons.2 ⟨_, (derive_iff H k _ j hk hi).2 ⟨n, f, hc, hF, rfl⟩, rfl⟩, rfl⟩
  | cons i is ih =>
    cases hn with
    | @step _ n1 _ _ _ hc hr =>
      have hc' := hc
      obtain ⟨P, hck, hP, hx, hy⟩ := hc'
      obtain ⟨f, _, hF⟩ := fingerprint_ok H ⟨(n1.x, n1.y), k.network, true⟩ hx hy
      have hd := (derive_iff H k ⟨⟨(n1.x, n1.y), k.network, true⟩, n1.chain, k.depth + 1, i, k.fingerprint,
        k.network, f⟩ i hk hi).2 ⟨n1, f, hc, hF, rfl⟩
      obtain ⟨hp, -⟩ := derive_proper hk hi hd
      obtain ⟨c, h, e⟩ := ih _ hp (his i (by simp)) (fun x hx => his x (by simp [hx])) hr
      exact ⟨c, derivePath_cons.2 ⟨_, hd, h⟩, e⟩

/-- The secrets of a path are the discrete logarithms of its points. -/
theorem path_secret {H : Hashes} {p r : Node} {is : List Nat} (h : Path H p is r) (d : Nat) (h0 : 0 < d) (h1 : d < secpN)
    (hx : reduced p.x) (hy : reduced p.y) (hd : IsPoint p.x p.y (d • G)) :
    ∃ d', PrivPath H p.chain d is d' r.chain ∧ 0 < d' ∧ d' < secpN ∧ IsPoint r.x r.y (d' • G) := by
  induction h generalizing d with
  | here p => exact ⟨d, .here _ _, h0, h1, hd⟩
  | @step p c r i is hc _ ih =>
    obtain ⟨P, ⟨sec, ib, Q, hs, hi, hQ, rfl, hch⟩, hP, hcx, hcy⟩ := hc
    obtain rfl := isPoint_unique hQ hd
    have hN : 0 < secpN := by decide
    have e : (beValue ((H.hmacSha512 p.chain (sec ++ ib)).take 32) • G + d • G : SecpGroup) =
        ((beValue ((H.hmacSha512 p.chain (sec ++ ib)).take 32) + d) % secpN) • G := by
      rw [← add_nsmul, ← addOrderOf_G, mod_addOrderOf_nsmul]
    rw [e] at hP
    have hne : (beValue ((H.hmacSha512 p.chain (sec ++ ib)).take 32) + d) % secpN ≠ 0 := by
      intro h
      rw [h, zero_nsmul] at hP
      exact isPoint_ne_zero hP rfl
    obtain ⟨d', hp, hd0, hd1, hr⟩ := ih _ (Nat.pos_of_ne_zero hne) (Nat.mod_lt _ hN) hcx hcy hP
    exact ⟨d', .step ⟨p.x, p.y, sec, ib, hx, hy, hd, hs, hi, rfl, hch⟩ hne hp, hd0, hd1, hr⟩

/-- C111. Nothing is sent to a key without owner: who knows the secret of `k` can compute the secret of every key that is
derived, by `CKDpriv` along the same path. -/
theorem C111_owner (H : Hashes) (k : HDPublicKey) (hk : k.Proper H) (hi : Number k.index) (d : Nat) (h0 : 0 < d)
    (h1 : d < secpN) (hd : IsPoint k.pubkey.pair.1 k.pubkey.pair.2 (d • G)) (is : List Int) (his : ∀ i ∈ is, Number i) (j : Int)
    (c : HDPublicKey) (h : derivePath H k (is ++ [j]) = .ok c) :
    ∃ d', PrivPath H k.chain d ((k.index :: is).map Int.toNat) d' c.chain ∧ 0 < d' ∧ d' < secpN ∧
      IsPoint c.pubkey.pair.1 c.pubkey.pair.2 (d' • G) :=
  path_secret ((C111_path_partial H k hk hi is his j c).1 h).2.node d h0 h1 hk.x hk.y hd

/-- C111 is false of the code: the last number of a path has no influence on the key, so that all the children of a key have
the same addresses. -/
theorem C111_last_refuted (H : Hashes) (k : HDPublicKey) (hk : k.Proper H) (hi : Number k.index) (is : List Int)
    (his : ∀ i ∈ is, Number i) (j j' : Int) (c : HDPublicKey) (h : derivePath H k (is ++ [j]) = .ok c) :
    derivePath H k (is ++ [j']) = .ok { c with index := j' } := by
  obtain ⟨-, a⟩ := (C111_path_partial H k hk hi is his j c).1 h
  exact (C111_path_partial H k hk hi is his j' _).2 ⟨rfl, ⟨a.proper.1, a.proper.2, a.proper.3, a.proper.4, a.proper.5⟩,
    a.node, a.depth, a.parent, a.network⟩

/-- Hashes whose HMAC is 60 zeros and the last four bytes of the message. -/
def lastHmac : Hashes := { Hashes.toy with
  hmacSha512 := fun _ b => List.replicate 60 0 ++ (b.drop (b.length - 4) ++ List.replicate 4 0).take 4
  hmacSha512_length := fun _ b => by simp }

/-- Hashes whose HMAC is 64 bytes `ff`. -/
def onesHmac : Hashes := { Hashes.toy with
  hmacSha512 := fun _ _ => List.replicate 64 255
  hmacSha512_length := fun _ _ => by simp }

/-- The generator as a master key. -/
def masterXpub : HDPublicKey :=
  ⟨⟨(secpGx, secpGy), .livenet, true⟩, sampleChain, 0, 0, 0, .livenet,
    beValue ((Hashes.toy.ripemd160 (Hashes.toy.sha256 (2 :: encodeInt secpGx true (some 32)))).take 4)⟩

theorem isPoint_G : IsPoint secpGx secpGy G := ⟨G_nonsingular, rfl⟩

theorem masterXpub_proper (H : Hashes) (h1 : H.sha256 = Hashes.toy.sha256) (h2 : H.ripemd160 = Hashes.toy.ripemd160) :
    masterXpub.Proper H := by
  refine ⟨rfl, by unfold reduced; decide, by unfold reduced; decide, by unfold OnSecp; decide, ?_⟩
  refine ⟨2 :: encodeInt secpGx true (some 32), ⟨encodeInt secpGx true (some 32), by decide, by decide, ?_⟩, ?_, ?_⟩
  · rw [if_pos rfl, if_pos (by decide)]
  · rw [h1, h2]; decide
  · rw [h1, h2]; rfl

/-- The hypotheses of the theorems above are met, and a path of three numbers is derived. -/
example : masterXpub.Proper lastHmac ∧ Number masterXpub.index ∧ (∀ i ∈ [(4 : Int), 5], Number i) ∧
    (0 < 1 ∧ 1 < secpN ∧ IsPoint masterXpub.pubkey.pair.1 masterXpub.pubkey.pair.2 ((1 : Nat) • G)) ∧
    ((derivePath lastHmac masterXpub ([4, 5] ++ [6])).toOption.map fun c => (c.depth, c.index)) = some (3, 6) :=
  ⟨masterXpub_proper _ rfl rfl, by unfold Number; decide, by unfold Number; decide,
    ⟨by decide, by decide, by rw [one_nsmul]; exact isPoint_G⟩, by decide +kernel⟩

/-- C111 is false of the code: the key that is returned is not the one at the path that was asked for. -/
theorem C111_path_refuted : ∃ (H : Hashes) (k c : HDPublicKey), k.Proper H ∧ Number k.index ∧
    derivePath H k [1] = .ok c ∧ ¬ Path H k.node [1] c.node := by
  have hk := masterXpub_proper lastHmac rfl rfl
  obtain ⟨P, chain', hck, hne, -⟩ := C58_public_partial lastHmac masterXpub 1 hk.compressed hk.x hk.y hk.on (by decide)
  have tail (sec ib : Bytes) (h : ib.length = 4) :
      lastHmac.hmacSha512 masterXpub.chain (sec ++ ib) = List.replicate 60 0 ++ ib := by
    show List.replicate 60 0 ++ _ = _
    congr 1
    rw [show (sec ++ ib).length - 4 = sec.length by simp [h], List.drop_left, ← h, List.take_left]
  obtain ⟨sec, ib, Q, hs, hi, hQ, hPe, hch⟩ := hck
  rw [tail sec ib hi.1] at hPe hch
  have hz : beValue ((List.replicate 60 (0 : Byte) ++ ib).take 32) = 0 := by
    rw [List.take_append_of_le_length (by simp)]
    decide
  rw [hz, zero_nsmul, zero_add] at hPe
  obtain ⟨x, y, f, hx, hy, hP, hF, hd⟩ := hne (hPe ▸ isPoint_ne_zero hQ)
  refine ⟨lastHmac, masterXpub, _, hk, by unfold Number; decide, derivePath_cons.2 ⟨_, hd, rfl⟩, ?_⟩
  intro hp
  cases hp with
  | step hc hr =>
    cases hr
    obtain ⟨P', ⟨sec', ib', Q', hs', hi', hQ', -, hch'⟩, -⟩ := hc
    have e : chain' = (lastHmac.hmacSha512 masterXpub.chain (sec' ++ ib')).drop 32 := hch'
    rw [tail sec' ib' hi'.1, hch] at e
    rw [List.drop_append_of_le_length (by simp), List.drop_append_of_le_length (by simp), List.append_cancel_left_eq] at e
    have := hi.2
    rw [e, hi'.2] at this
    exact absurd this (by decide)

/-- C111 is false of the code: BIP 32 declares a child invalid when the left half of the HMAC is not below the group order;
`derive` returns it. -/
theorem C111_overflow_refuted : ∃ (H : Hashes) (k c : HDPublicKey), k.Proper H ∧ Number k.index ∧
    derivePath H k [0] = .ok c ∧ ∀ msg, secpN ≤ beValue ((H.hmacSha512 k.chain msg).take 32) := by
  have hk := masterXpub_proper onesHmac rfl rfl
  obtain ⟨P, chain', hck, hne, -⟩ := C58_public_partial onesHmac masterXpub 0 hk.compressed hk.x hk.y hk.on (by decide)
  have hv : beValue ((List.replicate 64 (255 : Byte)).take 32) = 2 ^ 256 - 1 := by decide
  obtain ⟨sec, ib, Q, hs, hi, hQ, hPe, hch⟩ := hck
  have hP0 : P = (2 ^ 256 - 1) • G + Q := by rw [hPe]; exact congrArg (· • G + Q) hv
  rw [isPoint_unique hQ isPoint_G, ← succ_nsmul] at hP0
  have : P ≠ 0 := by
    rw [hP0, Ne, ← addOrderOf_dvd_iff_nsmul_eq_zero, addOrderOf_G]
    decide
  obtain ⟨x, y, f, hx, hy, hP, hF, hd⟩ := hne this
  refine ⟨onesHmac, masterXpub, _, hk, by unfold Number; decide, derivePath_cons.2 ⟨_, hd, rfl⟩, ?_⟩
  intro msg
  show secpN ≤ beValue ((List.replicate 64 (255 : Byte)).take 32)
  rw [hv]
  decide

end Bitforge
