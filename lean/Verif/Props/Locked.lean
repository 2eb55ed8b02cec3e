import Verif.Props.MalleableTx
import Verif.Props.Owner

/-! # C98 where nodes enforce their rules: what of a signed transaction can still be changed

The counterpart of `C98_transaction_refuted`: under SCRIPT_VERIFY_LOW_S (bit 3), SIGPUSHONLY (5), MINIMALDATA (6) and
CLEANSTACK (8), the flags that nodes set for what they relay, an input that spends a payment to a hash of a key has one
form for each signature. -/

namespace Bitforge.Spec.Ref

/-- An opcode up to OP_16 pushes one element; in one way only, with MINIMALDATA, if it has two bytes or more. -/
theorem act_pushOnly {H : Hashes} {C : Checker} {flags : Nat} (h6 : flags.testBit 6) {i : WireInstr}
    {after : List WireInstr} {s s' : St} (hi : i.1.val ≤ 96) (hc : s.cond = []) (h : act H C flags i after s = some s') :
    ∃ d, s' = { s with stack := d :: s.stack } ∧ (2 ≤ d.length → i = pushOf d) := by
  obtain ⟨op, od⟩ := i
  simp only [] at hi
  unfold act at h
  simp only [hc, List.all_nil, true_and, true_or, if_true] at h
  rw [if_neg (by omega : ¬ op.val > 96)] at h
  split at h
  · cases h
  · next hl =>
    split at h
    · cases h
    · split at h
      · cases h
      · split at h
        · next h78 =>
          split at h
          · cases h
          · next hm =>
            cases h
            refine ⟨od.getD [], rfl, fun h2 => ?_⟩
            cases od with
            | none => simp at h2
            | some d =>
              simp only [Option.getD_some] at hm hl h2 ⊢
              have hm : minimalPush op.val d = true := by
                by_contra hn
                exact hm ⟨h6, by simpa using hn⟩
              obtain ⟨p1, _, _, p4, p5, p6, _⟩ := pushOf_op d (by omega)
              have : (pushOf d).1 = op := by
                apply Fin.ext
                match d, h2, hm with
                | [], h2, _ => simp at h2
                | [_], h2, _ => simp at h2
                | a :: b :: r, h2, hm =>
                  unfold minimalPush at hm
                  simp only [reduceCtorEq, false_and, if_false] at hm
                  split at hm
                  · rw [p4 (by assumption)]; exact (eq_of_beq hm).symm
                  · split at hm
                    · rw [p5 (by omega) (by assumption)]; exact (eq_of_beq hm).symm
                    · rw [if_pos (by omega)] at hm
                      rw [p6 (by omega) (by omega)]; exact (eq_of_beq hm).symm
              rw [← this, ← p1]
        · next h78 =>
          by_cases h79 : op.val = 79
          · rw [h79] at h
            have e : exec H C flags 79 true after s = some { s with stack := serialize (-1) :: s.stack } := rfl
            rw [e] at h
            cases h
            exact ⟨_, rfl, fun h2 => absurd h2 (by decide)⟩
          · by_cases h80 : op.val = 80
            · rw [h80] at h
              have e : exec H C flags 80 true after s = none := rfl
              rw [e] at h
              cases h
            · have e : exec H C flags op.val true after s = some { s with stack := serialize ((op.val : Int) - 80) :: s.stack } := by
                unfold exec
                rw [if_neg h79, if_pos (by omega)]
              rw [e] at h
              cases h
              refine ⟨_, rfl, fun h2 => absurd h2 ?_⟩
              have : ∀ n : Nat, n < 17 → ¬ 2 ≤ (serialize ((n : Nat) : Int)).length := by decide
              rw [show ((op.val : Int) - 80) = ((op.val - 80 : Nat) : Int) by omega]
              exact this _ (by omega)

/-- What a script of pushes leaves. -/
theorem run_pushOnly {H : Hashes} {C : Checker} {flags : Nat} (h6 : flags.testBit 6) : ∀ (s : List WireInstr) (σ r : St),
    PushOnly s → σ.cond = [] → run H C flags s σ = some r →
    ∃ ds, r.stack = ds.reverse ++ σ.stack ∧ List.Forall₂ (fun i d => 2 ≤ d.length → i = pushOf d) s ds
  | [], σ, r, _, _, h => by cases h; exact ⟨[], by simp, .nil⟩
  | i :: is, σ, r, hp, hc, h => by
    rw [run] at h
    cases ha : act H C flags i is σ with
    | none => rw [ha] at h; cases h
    | some σ' =>
      rw [ha] at h
      simp only [] at h
      obtain ⟨d, rfl, hd⟩ := act_pushOnly h6 (hp i (by simp)) hc ha
      split at h
      · cases h
      · obtain ⟨ds, e, hf⟩ := run_pushOnly h6 is { σ with stack := d :: σ.stack } r (fun j hj => hp j (by simp [hj])) hc h
        exact ⟨d :: ds, by simpa using e, .cons hd hf⟩

end Bitforge.Spec.Ref

namespace Bitforge
open Spec

/-- The flags of C98 for nodes: LOW_S, SIGPUSHONLY, MINIMALDATA and CLEANSTACK. -/
def NodeRules (flags : Nat) : Prop := flags.testBit 3 ∧ flags.testBit 5 ∧ flags.testBit 6 ∧ flags.testBit 8

/-- A signature has one DER text. -/
theorem sigText_unique {a b : Bytes} {r s : Int} (h : SigText a r s) (h' : SigText b r s) : a = b := by
  have der : ∀ {n : Int} {x y : Bytes}, DerOf n x → DerOf n y → x = y := fun {n x y} hx hy =>
    beValue_inj x y (le_antisymm (hx.2.2 y hy.2.1) (hy.2.2 x hx.2.1))
      (by have := (derOf_value hx).symm.trans (derOf_value hy); omega)
  have tlv : ∀ {t : Byte} {c x y : Bytes}, Tlv t c x → Tlv t c y → x = y := by
    rintro t c x y ⟨l, hl, rfl⟩ ⟨l', hl', rfl⟩
    rw [Fin.ext (hl.trans hl'.symm)]
  obtain ⟨rc, sc, rb, sb, h1, h2, h3, h4, h5⟩ := h
  obtain ⟨rc', sc', rb', sb', h1', h2', h3', h4', h5'⟩ := h'
  cases der h1 h1'
  cases der h2 h2'
  cases tlv h3 h3'
  cases tlv h4 h4'
  exact tlv h5 h5'

/-- C98. Under the rules of nodes, an input that spends a payment to a hash of a key is a signature and a key, each pushed
in the one way that is left, and `s` is small. -/
theorem C98_form (H : Hashes) (flags : Nat) (hf : NodeRules flags) (w : WireTx) (n : Nat) (h : Bytes) (hl : h.length = 20)
    (hs : Ref.Spends H flags w n (118 :: 169 :: 20 :: (h ++ [136, 172]))) :
    ∃ x der t r s key, w.inputs[n]? = some x ∧ x.script = shortPush (der ++ [t]) ++ shortPush key ∧ SigText der r s ∧
      2 * s ≤ secpN ∧ H.ripemd160 (H.sha256 key) = h ∧
      Endorsed H flags w n (Ref.payToKey h) [der ++ [t]] (der ++ [t]) key := by
  obtain ⟨x, hx, s, p, st, st', es, ep, h5, e1, e2, hsu, hcl⟩ := hs
  cases encodes_injective ep (payToKey_encodes h hl)
  obtain ⟨key, sig, rest, rfl, hk, hc, rfl⟩ := Ref.payToKey_inv hl e2 hsu
  have hend := checker_iff.1 hc
  obtain ⟨l1, l2, l3, l4⟩ := endorsed_lengths hend
  have hrest : rest = [] := by
    rw [if_neg (by
      rintro ⟨_, h', _, e⟩
      exact absurd (List.cons.inj e).1 (by decide))] at hcl
    have := hcl hf.2.2.2
    simpa using this
  subst hrest
  obtain ⟨σ, hr, hσ⟩ := Ref.eval_inv e1
  obtain ⟨ds, e, hds⟩ := Ref.run_pushOnly hf.2.2.1 s _ σ (h5 hf.2.1) rfl hr
  rw [hσ] at e
  have : ds = [sig, key] := by
    have := congrArg List.reverse e
    simpa using this.symm
  subst this
  obtain ⟨i, is, hi, hds1, rfl⟩ := List.forall₂_cons_right_iff.1 hds
  obtain ⟨j, js, hj, hds2, rfl⟩ := List.forall₂_cons_right_iff.1 hds1
  cases List.forall₂_nil_right_iff.1 hds2
  cases hi (by omega)
  cases hj (by omega)
  have hscript : x.script = shortPush sig ++ shortPush key := by
    have : Encodes [pushOf sig, pushOf key] (shortPush sig ++ (shortPush key ++ [])) :=
      .cons (Ref.pushOf_wf _ (by omega)) (pushOf_isWire _ (by omega) (by omega))
        (.cons (Ref.pushOf_wf _ (by omega)) (pushOf_isWire _ (by omega) (by omega)) .nil)
    rw [List.append_nil] at this
    exact encodes_unique es this
  obtain ⟨henc, _, _⟩ := id hend
  rcases henc with rfl | ⟨_, hlow, _⟩
  · simp at l1
  · obtain ⟨der, t, r, ss, rfl, ht, hlow⟩ := hlow hf.1
    exact ⟨x, der, t, r, ss, key, hx, hscript, ht, hlow, hk, hend⟩

/-- C98, part that holds of signed transactions: under the rules of nodes, whoever changes the input of an AddressInput
that `Transaction.sign` made, and nothing else but scripts, and gets it accepted with the same `r` and type, has the same
input, or a key that collides with the one signed for.  Missing: values of `r` below `p - n` (less than 2^129), and
signatures that are the hash itself; other `r` are other signatures, which the owner can make. -/
theorem C98_locked_partial (H : Hashes) (nonces : Nat → Nat) (hν : NoncesOk nonces) (t u v : Transaction)
    (k : PrivateKey) (hk : k.Good) (n : Nat) (id : Text) (ix seq : Int) (a : Address) (x : Input) (ha : a.phash.length = 20)
    (hc : AddressInput.create id ix a seq = .ok x) (hcan : AddressInput.canSign H x [k] = .ok true)
    (ht : t.InRange) (hx : t.inputs[n]? = some x) (h : t.sign H (keySigner nonces) [k] n 1 = .ok u)
    (hv : Signs H u v) (w : WireTx) (hw : v.Shows w) :
    ∃ y der r s pb, w.inputs[n]? = some y ∧ y.script = shortPush (der ++ [1]) ++ shortPush pb ∧ SigText der r s ∧
      ∀ (flags : Nat) (w' : WireTx), NodeRules flags → SameCore w w' →
        Ref.Spends H flags w' n (118 :: 169 :: 20 :: (a.phash ++ [136, 172])) →
        ∃ y' der' t' r' s' pb', w'.inputs[n]? = some y' ∧ y'.script = shortPush (der' ++ [t']) ++ shortPush pb' ∧
          SigText der' r' s' ∧
          (t' = 1 → r' = r → (secp.p : Int) - secpN ≤ r → der' ++ [t'] ≠ a.phash → y' = y ∨ Collide160 H pb' pb) := by
  obtain ⟨w0, xw, y, sb, pb, ax, ay, hw0, hxw, hxscript, hcore, hy, hwires, hsig, rx, ry, hpt, hsec, ⟨hhash, yw, hyw, henc⟩, -⟩ :=
    address_spends H nonces hν t u v k hk n 1 id ix seq a x ha hc hcan ht hx h hv w hw
  rw [show ((1 : Int).toNat) = 1 from rfl] at hsig
  obtain ⟨h9, h73, _⟩ := signsDigest_head hsig
  obtain ⟨_, der, rr, ss, tt, e1, e2, e3, e4, e5⟩ := hsig
  have hlk : 33 ≤ pb.length ∧ pb.length ≤ 65 := by rcases sec_head hsec with h | h <;> omega
  have htt : tt = 1 := Fin.ext e2
  subst htt
  have hscript : yw.script = shortPush sb ++ shortPush pb := by
    have : Encodes [pushOf sb, pushOf pb] (shortPush sb ++ (shortPush pb ++ [])) :=
      .cons (Ref.pushOf_wf _ (by omega)) (pushOf_isWire _ (by omega) (by omega))
        (.cons (Ref.pushOf_wf _ (by omega)) (pushOf_isWire _ (by omega) (by omega)) .nil)
    rw [List.append_nil] at this
    exact encodes_unique henc this
  refine ⟨yw, der, rr, ss, pb, hyw, e1 ▸ hscript, e3, fun flags w' hf hcore' hsp => ?_⟩
  obtain ⟨y', der', t', r', s', key, hy', hs', ht', hlow, hkey, hend⟩ := C98_form H flags hf w' n a.phash ha hsp
  refine ⟨y', der', t', r', s', key, hy', hs', ht', fun et er hr hne => ?_⟩
  subst et er
  by_cases hkp : key = pb
  · left
    subst hkp
    have hlen := (endorsed_lengths hend).2.1
    have hlen0 := (endorsed_lengths hend).1
    simp only [List.length_append, List.length_cons, List.length_nil] at hlen hlen0
    have hval := (signed_iff ht' (by omega) hsec rx ry hpt (by
      rw [scriptCode_payToKey (der' ++ [1]) a.phash (by simpa using hlen0) ha hne]
      exact payToKey_encodes a.phash ha)).1 hend.2.2
    rw [e2, ← signatureHash_core H hcore', ← signatureHash_core H hcore, ← hxscript,
        signatureHash_all H w0 n xw hxw 1 (by decide) (by decide) (by decide)] at hval
    have es := C98_small_partial e4 hval e5 hlow hr
    subst es
    cases sigText_unique ht' e3
    have hg := sameCore_get hcore' n
    rw [hyw, hy'] at hg
    obtain ⟨c1, c2, c3⟩ := core_eq (Option.some.inj hg)
    obtain ⟨_, _, _, _⟩ := y'
    obtain ⟨_, _, _, _⟩ := yw
    simp only [] at c1 c2 c3 hs' hscript
    subst c1 c2 c3 hs' hscript
    rw [e1]
  · exact .inr ⟨hkp, hkey.trans hhash.symm⟩

end Bitforge
