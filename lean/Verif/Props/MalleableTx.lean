import Verif.Props.ConsensusCases
import Verif.Props.Malleable

/-! # C98 for transactions: a third party can change one that is signed -/

namespace Bitforge
open Spec

/-- A signature and a key are accepted where the key has the hash and the signature passes. -/
theorem payToKey_spends (H : Hashes) (flags : Nat) (w : WireTx) (n : Nat) (x : WireIn) (sb pb h : Bytes)
    (hx : w.inputs[n]? = some x) (hs : Encodes [pushOf sb, pushOf pb] x.script) (hl : h.length = 20)
    (h1 : 2 ≤ sb.length) (h1' : sb.length ≤ 75) (h2 : 2 ≤ pb.length) (h2' : pb.length ≤ 75)
    (hh : H.ripemd160 (H.sha256 pb) = h)
    (hc : (Ref.checker H flags w n).sig (Ref.payToKey h) [sb] sb pb = some true) :
    Ref.Spends H flags w n (118 :: 169 :: 20 :: (h ++ [136, 172])) := by
  have heval : Ref.eval H (Ref.checker H flags w n) flags [pushOf sb, pushOf pb] [] = some [pb, sb] := by
    unfold Ref.eval
    rw [if_neg (by
      have h1 := Ref.pushOf_size sb
      have h2 := Ref.pushOf_size pb
      simp only [Ref.size, List.map_cons, List.map_nil, List.sum_cons, List.sum_nil]
      omega)]
    have := Ref.run_pushes H (Ref.checker H flags w n) flags [] [sb, pb]
      { stack := [], code := [pushOf sb, pushOf pb] } (by
        intro b hb
        simp only [List.mem_cons, List.not_mem_nil, or_false] at hb
        rcases hb with rfl | rfl
        · omega
        · omega) rfl (by simp)
    simp only [List.map_cons, List.map_nil, List.append_nil] at this
    rw [this]
    rfl
  have hout := Ref.eval_payToKey H (Ref.checker H flags w n) flags sb pb
  rw [hh, hc] at hout
  refine ⟨x, hx, [pushOf sb, pushOf pb], Ref.payToKey h, [pb, sb], [[1]], hs, payToKey_encodes h hl, ?_, heval, hout,
    ⟨[1], [], rfl, by decide⟩, ?_⟩
  · intro _ i hi
    have h1 := (Ref.pushOf_op sb (by omega)).2.2.1
    have h2 := (Ref.pushOf_op pb (by omega)).2.2.1
    simp only [List.mem_cons, List.not_mem_nil, or_false] at hi
    rcases hi with rfl | rfl <;> omega
  · rw [if_neg]
    · exact fun _ => rfl
    · rintro ⟨_, h', _, e⟩
      exact absurd (List.cons.inj e).1 (by decide)

/-- A signature with large `s` is longer than a hash. -/
theorem sigText_long {sig : Bytes} {r s : Int} (h : SigText sig r s) (hs : 256 ^ 20 ≤ s) : 20 < sig.length := by
  obtain ⟨rc, sc, rb, sb, _, h2, ⟨_, _, rfl⟩, ⟨_, _, rfl⟩, ⟨_, _, rfl⟩⟩ := h
  have := beValue_lt sc
  rw [← Int.ofNat_lt, ← derOf_value h2] at this
  have : (256 : Nat) ^ 20 < 256 ^ sc.length := by
    rw [← Int.ofNat_lt]; push_cast at this ⊢; omega
  have := (Nat.pow_lt_pow_iff_right (by decide)).1 this
  simp
  omega

/-- C98 is false of signed transactions: whatever `Transaction.sign` made of an AddressInput, the reference client accepts
another transaction that spends the same output in its place, and pays to the same outputs, but has another identifier; no
key is needed to make it.  SCRIPT_VERIFY_LOW_S, a rule of nodes and not of the chain, has to be off. -/
theorem C98_transaction_refuted (H : Hashes) (nonces : Nat → Nat) (hν : NoncesOk nonces) (t u v : Transaction)
    (k : PrivateKey) (hk : k.Good) (n : Nat) (id : Text) (ix seq : Int) (a : Address) (x : Input) (ha : a.phash.length = 20)
    (hc : AddressInput.create id ix a seq = .ok x) (hcan : AddressInput.canSign H x [k] = .ok true)
    (ht : t.InRange) (hx : t.inputs[n]? = some x) (h : t.sign H (keySigner nonces) [k] n 1 = .ok u)
    (hv : Signs H u v) (w : WireTx) (hw : v.Shows w) (flags : Nat) (hflag : flags.testBit 3 = false) :
    ∃ w' : WireTx, w' ≠ w ∧ (w.Fits → w'.Fits ∧ w'.bytes ≠ w.bytes) ∧ SameCore w w' ∧ (∀ m, m ≠ n → w'.inputs[m]? = w.inputs[m]?) ∧
      Ref.Spends H flags w' n (118 :: 169 :: 20 :: (a.phash ++ [136, 172])) := by
  obtain ⟨w0, xw, y, sb, pb, ax, ay, hw0, hxw, hxscript, hcore, hy, hwires, hsig, rx, ry, hpt, hsec, ⟨hhash, yw, hyw, henc⟩, -⟩ :=
    address_spends H nonces hν t u v k hk n 1 id ix seq a x ha hc hcan ht hx h hv w hw
  rw [show ((1 : Int).toNat) = 1 from rfl] at hsig
  obtain ⟨h9, h73, _⟩ := signsDigest_head hsig
  obtain ⟨_, der, rr, ss, tt, e1, e2, e3, e4, e5⟩ := hsig
  have hN := secpN_lt
  obtain ⟨b1, b2, b3, b4, _⟩ := validSig_neg e4
  obtain ⟨der', _, ht', l1, l2⟩ := sigencode_spec (r := rr) (s := secpN - ss) (by omega) (by omega) (by omega) (by omega)
  have hodd : (secpN : Int) % 2 = 1 := by decide
  have hbig : (256 : Int) ^ 20 * 2 ≤ secpN := by decide
  have hlong := sigText_long ht' (by omega)
  have hlk : 33 ≤ pb.length ∧ pb.length ≤ 65 := by rcases sec_head hsec with h | h <;> omega
  have hl' : (der' ++ [tt]).length = der'.length + 1 := by simp
  have hne : der' ++ [tt] ≠ sb := by
    rw [e1]
    intro e
    have := (List.append_inj' e rfl).1
    subst this
    have d1 := sigdecode_text ht' (by omega)
    rw [sigdecode_text e3 (by omega)] at d1
    simp only [Except.ok.injEq, Prod.mk.injEq, true_and] at d1
    omega
  have hne' : der' ++ [tt] ≠ a.phash := by
    intro e
    have := congrArg List.length e
    omega
  have henc' : Encodes [pushOf (der' ++ [tt]), pushOf pb] (shortPush (der' ++ [tt]) ++ (shortPush pb ++ [])) :=
    .cons (Ref.pushOf_wf _ (by omega)) (pushOf_isWire _ (by omega) (by omega))
      (.cons (Ref.pushOf_wf _ (by omega)) (pushOf_isWire _ (by omega) (by omega)) .nil)
  have hlt := (List.getElem?_eq_some_iff.1 hyw).1
  generalize hyw' : ({ yw with script := shortPush (der' ++ [tt]) ++ (shortPush pb ++ []) } : WireIn) = yw'
  have hg : (w.inputs.set n yw')[n]? = some yw' := by simp [hlt]
  have hcore' : SameCore w { w with inputs := w.inputs.set n yw' } := by
    refine ⟨rfl, rfl, rfl, ?_⟩
    apply List.ext_getElem?
    intro m
    rw [List.getElem?_map, List.getElem?_map]
    by_cases hm : m = n
    · subst hm
      rw [hyw, hg, ← hyw']
      rfl
    · rw [List.getElem?_set_ne (fun e => hm e.symm)]
  have hwne : ({ w with inputs := w.inputs.set n yw' } : WireTx) ≠ w := by
    intro this
    have := congrArg (fun v : WireTx => v.inputs[n]?) this
    simp only [hg, hyw, Option.some.injEq] at this
    rw [← hyw'] at this
    have hs : yw.script = _ := congrArg WireIn.script this.symm
    rw [hs] at henc
    have := encodes_injective henc henc'
    exact hne (pushOf_inj (List.cons.inj this).1).symm
  refine ⟨{ w with inputs := w.inputs.set n yw' }, hwne, fun hf => ?_, hcore', ?_, ?_⟩
  · have hfy := hf.2.2.1 yw (List.mem_of_getElem? hyw)
    have hf' : WireTx.Fits { w with inputs := w.inputs.set n yw' } := by
      refine ⟨hf.1, hf.2.1, ?_, hf.2.2.2.1, ?_, hf.2.2.2.2.2⟩
      · intro i hi
        rcases List.mem_or_eq_of_mem_set hi with h | h
        · exact hf.2.2.1 i h
        · rw [h, ← hyw']
          refine ⟨hfy.1, hfy.2.1, ?_, hfy.2.2.2⟩
          simp only [shortPush, List.length_append, List.length_cons, List.length_nil]
          omega
      · simpa using hf.2.2.2.2.1
    exact ⟨hf', fun e => hwne (wireTx_append_inj (a := []) (b := []) (by simpa using e) hf' hf).1⟩
  · intro m hm
    exact List.getElem?_set_ne (fun e => hm e.symm)
  · refine payToKey_spends H flags _ n yw' (der' ++ [tt]) pb a.phash hg (hyw' ▸ henc') ha (by omega) (by omega) (by omega)
      (by omega) hhash ?_
    have ht2 := ht'
    obtain ⟨rc, sc, rb, sb', k1, k2, k3, k4, k5⟩ := ht2
    refine checker_signed (.inr ⟨⟨rc, sc, rb, sb', der', tt, derNat_of k1, derNat_of k2, k3, k4, k5, rfl, by omega, by omega⟩,
      fun h3 => ?_, fun _ => ⟨der', tt, rfl, by omega, by omega⟩⟩) hsec ?_
    · rw [hflag] at h3; cases h3
    · refine (signed_iff ht' (by omega) hsec rx ry hpt (by
        rw [scriptCode_payToKey (der' ++ [tt]) a.phash (by omega) ha hne']
        exact payToKey_encodes a.phash ha)).2 ?_
      rw [e2, ← signatureHash_core H hcore', ← signatureHash_core H hcore, ← hxscript,
        signatureHash_all H w0 n xw hxw 1 (by decide) (by decide) (by decide)]
      exact validSig_neg e4

/-- Hypotheses of `C98_transaction_refuted`, for the real hash functions. -/
example : (⟨oneHash, .livenet, .publicKey⟩ : Address).phash.length = 20 ∧ oneKey.Good ∧ pairTx.InRange ∧
    pairTx.inputs[0]? = some (oneInput 0) ∧ (∃ u, pairTx.sign .real (keySigner fun _ => 1) [oneKey] 0 1 = .ok u) ∧
    Nat.testBit 23 3 = false :=
  ⟨by decide +kernel, both_good _ (by simp), pair_tx, rfl, ok_of_toBool (by decide +kernel), by decide⟩

end Bitforge
