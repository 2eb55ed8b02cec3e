import Verif.Spec.Policy
import Verif.Props.Size
import Verif.Props.Ledger

/-! # C112, C114: what the reference client checks of a transaction before its scripts, and when it may be in a block -/

namespace Bitforge
open Spec Transaction

/-- The previous output that a coinbase spends, as `Input` writes it. -/
def nullPoint : Text × Int := (List.replicate 64 '0', 2 ^ 32 - 1)

/-- The previous outputs of the transaction. -/
def Transaction.points (t : Transaction) : List (Text × Int) := t.inputs.map fun i => (i.txId, i.txoIndex)

/-- What the transaction pays. -/
def Transaction.amounts (t : Transaction) : List Int := t.outputs.map Output.amount

theorem null_iff (i : WireIn) : Ref.Null i ↔ (hexText i.txid.reverse, (i.index : Int)) = nullPoint := by
  have h0 : hexText (List.replicate 32 0 : Bytes).reverse = List.replicate 64 '0' := by decide +kernel
  unfold Ref.Null nullPoint
  rw [Prod.mk.injEq]
  constructor
  · rintro ⟨h1, h2⟩
    rw [h1, h2]
    exact ⟨h0, by norm_num⟩
  · rintro ⟨h1, h2⟩
    rw [← h0] at h1
    exact ⟨List.reverse_injective (hexText_inj h1), by omega⟩

theorem nodup_points (l : List WireIn) :
    (l.map fun i => (hexText i.txid.reverse, (i.index : Int))).Nodup ↔ (l.map fun i => (i.txid, i.index)).Nodup := by
  have e : (l.map fun i => (hexText i.txid.reverse, (i.index : Int))) =
      (l.map fun i => (i.txid, i.index)).map fun p => (hexText p.1.reverse, (p.2 : Int)) := by
    rw [List.map_map]; rfl
  rw [e, List.nodup_map_iff]
  rintro ⟨a, n⟩ ⟨b, m⟩ h
  simp only [Prod.mk.injEq] at h ⊢
  exact ⟨List.reverse_injective (hexText_inj h.1), by omega⟩

theorem sum_amounts (l : List WireOut) : (l.map fun o => (o.amount : Int)).sum = ((l.map WireOut.amount).sum : Nat) := by
  induction l with
  | nil => rfl
  | cons o l ih => simp only [List.map_cons, List.sum_cons, ih]; push_cast; rfl

theorem amount_le_sum (l : List WireOut) : ∀ o ∈ l, o.amount ≤ (l.map WireOut.amount).sum := by
  intro o ho
  exact List.single_le_sum (fun _ _ => Nat.zero_le _) _ (List.mem_map_of_mem ho)

theorem txChecks_iff (w : WireTx) (ps : List (Text × Int)) (as : List Int)
    (hp : w.inputs.map (fun i => (hexText i.txid.reverse, (i.index : Int))) = ps)
    (ha : w.outputs.map (fun o => (o.amount : Int)) = as) (hi : w.inputs ≠ []) (ho : w.outputs ≠ []) :
    Ref.Checks w ↔ w.bytes.length ≤ 1000000 ∧ as.sum ≤ 2100000000000000 ∧ ps.Nodup ∧
      (∀ i, w.inputs = [i] → Ref.Null i → 2 ≤ i.script.length ∧ i.script.length ≤ 100) ∧ (ps.length = 1 ∨ nullPoint ∉ ps) := by
  have hm : Ref.maxMoney = 2100000000000000 := by decide
  have hn : nullPoint ∈ ps ↔ ∃ i ∈ w.inputs, Ref.Null i := by
    rw [← hp, List.mem_map]
    exact ⟨fun ⟨i, h, e⟩ => ⟨i, h, (null_iff i).2 e⟩, fun ⟨i, h, e⟩ => ⟨i, h, (null_iff i).1 e⟩⟩
  have hl : ps.length = w.inputs.length := by rw [← hp, List.length_map]
  constructor
  · rintro ⟨-, -, h1, -, h2, h3, h4, h5⟩
    refine ⟨h1, ?_, by rw [← hp, nodup_points]; exact h3, h4, ?_⟩
    · rw [← ha, sum_amounts]; rw [hm] at h2; omega
    · by_cases hs : ∃ i, w.inputs = [i] ∧ Ref.Null i
      · obtain ⟨i, hi', _⟩ := hs
        left; rw [hl, hi']; rfl
      · right; rw [hn]
        rintro ⟨i, hi', h⟩
        exact h5 hs i hi' h
  · rintro ⟨h1, h2, h3, h4, h5⟩
    have ht : (w.outputs.map WireOut.amount).sum ≤ Ref.maxMoney := by
      rw [← ha, sum_amounts] at h2; rw [hm]; omega
    refine ⟨hi, ho, h1, fun o h => (amount_le_sum _ o h).trans ht, ht, by rw [← nodup_points, hp]; exact h3, h4, ?_⟩
    intro hs i hi' hnl
    rcases h5 with h5 | h5
    · rw [hl, List.length_eq_one_iff] at h5
      obtain ⟨j, hj⟩ := h5
      rw [hj, List.mem_singleton] at hi'
      exact hs ⟨j, hj, hi' ▸ hnl⟩
    · exact h5 (hn.2 ⟨i, hi', hnl⟩)

theorem shows_points {t : Transaction} {w : WireTx} (h : t.Shows w) :
    w.inputs.map (fun i => (hexText i.txid.reverse, (i.index : Int))) = t.points := by
  unfold points
  obtain ⟨-, h, -⟩ := h
  generalize w.inputs = ws at h
  generalize t.inputs = is at h
  induction h with
  | nil => rfl
  | cons hx _ ih => rw [List.map_cons, List.map_cons, ih, hx.1, hx.2.1]

theorem shows_amounts {t : Transaction} {w : WireTx} (h : t.Shows w) :
    w.outputs.map (fun o => (o.amount : Int)) = t.amounts := by
  unfold amounts
  obtain ⟨-, -, h, -⟩ := h
  generalize w.outputs = ws at h
  generalize t.outputs = is at h
  induction h with
  | nil => rfl
  | cons hx _ ih => rw [List.map_cons, List.map_cons, ih, hx.1]

/-- C112, part that holds: a transaction that can be serialised passes the checks of the reference client exactly if it
has at most 1000000 bytes, pays at most twenty-one million coins, does not spend an output twice, and does not spend the
null output, unless it spends nothing else with a script of 2 to 100 bytes.  Missing: the constructor checks none of it. -/
theorem C112_iff_partial (t : Transaction) (h : t.InRange) (hp : ¬ t.HasPushData) :
    ∃ w : WireTx, t.Shows w ∧ w.Fits ∧ t.toBytes = .ok w.bytes ∧
      (Ref.Checks w ↔ w.bytes.length ≤ 1000000 ∧ t.amounts.sum ≤ 2100000000000000 ∧ t.points.Nodup ∧
        (∀ i s, t.inputs = [i] → (i.txId, i.txoIndex) = nullPoint → i.script.toBytes = .ok s → 2 ≤ s.length ∧ s.length ≤ 100) ∧
        (t.points.length = 1 ∨ nullPoint ∉ t.points)) := by
  obtain ⟨w, hs, hf, hb, -⟩ := C34_format t h hp
  refine ⟨w, hs, hf, hb, ?_⟩
  have hi : w.inputs ≠ [] := by
    intro e; have := hs.2.1.length_eq; rw [e] at this; exact h.1.1 (List.length_eq_zero_iff.1 this)
  have ho : w.outputs ≠ [] := by
    intro e; have := hs.2.2.1.length_eq; rw [e] at this; exact h.1.2.1 (List.length_eq_zero_iff.1 this)
  rw [txChecks_iff w _ _ (shows_points hs) (shows_amounts hs) hi ho]
  have key : (∀ i, w.inputs = [i] → Ref.Null i → 2 ≤ i.script.length ∧ i.script.length ≤ 100) ↔
      (∀ i s, t.inputs = [i] → (i.txId, i.txoIndex) = nullPoint → i.script.toBytes = .ok s → 2 ≤ s.length ∧ s.length ≤ 100) := by
    constructor
    · intro H i s hi' hn hsb
      have h2 := hs.2.1
      rw [hi'] at h2
      obtain ⟨x, l, hx, hl, e⟩ := List.forall₂_cons_left_iff.1 h2
      cases hl
      have hpi : ¬ i.script.HasPushData := fun hq => hp (.inl ⟨i, by rw [hi']; simp, hq⟩)
      have := (script_toBytes i.script _ hx.2.2.1).trans (if_neg hpi)
      rw [hsb] at this
      cases this
      exact H x e ((null_iff x).2 (by rw [← hx.1, ← hx.2.1]; exact hn))
    · intro H x hx' hn
      have h2 := hs.2.1
      rw [hx'] at h2
      obtain ⟨i, l, hx, hl, e⟩ := List.forall₂_cons_right_iff.1 h2
      cases hl
      have hpi : ¬ i.script.HasPushData := fun hq => hp (.inl ⟨i, by rw [e]; simp, hq⟩)
      exact H i _ e (by rw [hx.1, hx.2.1]; exact (null_iff x).1 hn) ((script_toBytes i.script _ hx.2.2.1).trans (if_neg hpi))
  rw [key]

/-- The previous outputs of the coins. -/
def coinPoints (cs : List Coin) : List (Text × Int) := cs.map fun c => (c.txId, c.index)

theorem spent_points {cs : List Coin} {ws : List WireIn} (h : List.Forall₂ Coin.Spent cs ws) :
    ws.map (fun i => (hexText i.txid.reverse, (i.index : Int))) = coinPoints cs := by
  unfold coinPoints
  induction h with
  | nil => rfl
  | cons hx _ ih => rw [List.map_cons, List.map_cons, ih, hx.1, hx.2.1]

theorem pays_amounts {ps : List (Int × Address)} {ws : List WireOut} (h : List.Forall₂ Pays ps ws) :
    ws.map (fun o => (o.amount : Int)) = ps.map Prod.fst := by
  induction h with
  | nil => rfl
  | cons hx _ ih => rw [List.map_cons, List.map_cons, ih, hx.1]

/-- C112, part that holds for the payments of the examples: the signed transaction passes the checks exactly if no coin is
spent twice, the payments come to at most twenty-one million coins and the transaction has at most 1000000 bytes. -/
theorem C112_payment_partial (H : Hashes) (nonces : Nat → Nat → Nat) (hν : ∀ n, NoncesOk (nonces n)) (cs : List Coin)
    (ps : List (Int × Address)) (hc : cs ≠ []) (hco : ∀ c ∈ cs, c.Ok) (hp : ps ≠ []) (hpo : ∀ p ∈ ps, PayOk p)
    (hcl : cs.length < 2 ^ 63) (hpl : ps.length < 2 ^ 63) (hnull : nullPoint ∉ coinPoints cs) :
    Payment.run H (fun n => keySigner (nonces n)) cs ps = .error .rsZeroError ∨
    ∃ w : WireTx, Payment.run H (fun n => keySigner (nonces n)) cs ps = .ok (hexText w.bytes) ∧
      (Ref.Checks w ↔ w.bytes.length ≤ 1000000 ∧ (ps.map Prod.fst).sum ≤ 2100000000000000 ∧ (coinPoints cs).Nodup) := by
  rcases C92_run H nonces hν cs ps hc hco hp hpo hcl hpl with h | ⟨w, h1, _, _, h4, h5, _, h7⟩
  · exact .inl h
  · right
    refine ⟨w, h1, ?_⟩
    have hi : w.inputs ≠ [] := by
      intro e; rw [e] at h4; cases h4; exact hc rfl
    have ho : w.outputs ≠ [] := by
      intro e; rw [e] at h5; cases h5; exact hp rfl
    rw [txChecks_iff w _ _ (spent_points h4) (pays_amounts h5) hi ho]
    constructor
    · rintro ⟨a, b, c, -, -⟩; exact ⟨a, b, c⟩
    · rintro ⟨a, b, c⟩
      refine ⟨a, b, c, fun i hi' hn => ?_, .inr hnull⟩
      refine absurd ?_ hnull
      rw [← spent_points h4, hi', (null_iff i).1 hn |>.symm]
      simp

/-- C112. It is enough that the coins are distinct, the payments come to at most twenty-one million coins, and there are at
most 5000 coins and 2900 payments. -/
theorem C112_payment (H : Hashes) (nonces : Nat → Nat → Nat) (hν : ∀ n, NoncesOk (nonces n)) (cs : List Coin)
    (ps : List (Int × Address)) (hc : cs ≠ []) (hco : ∀ c ∈ cs, c.Ok) (hp : ps ≠ []) (hpo : ∀ p ∈ ps, PayOk p)
    (hcl : cs.length ≤ 5000) (hpl : ps.length ≤ 2900) (hnull : nullPoint ∉ coinPoints cs) (hd : (coinPoints cs).Nodup)
    (hm : (ps.map Prod.fst).sum ≤ 2100000000000000) :
    Payment.run H (fun n => keySigner (nonces n)) cs ps = .error .rsZeroError ∨
    ∃ w : WireTx, Payment.run H (fun n => keySigner (nonces n)) cs ps = .ok (hexText w.bytes) ∧ Ref.Checks w := by
  have l1 : cs.length < 2 ^ 63 := by omega
  have l2 : ps.length < 2 ^ 63 := by omega
  rcases C112_payment_partial H nonces hν cs ps hc hco hp hpo l1 l2 hnull with h | ⟨w, h, hiff⟩
  · exact .inl h
  · rcases C103_payment H nonces hν cs ps hc hco hp hpo l1 l2 with h' | ⟨b, base, h', hb, -, hu⟩
    · exact .inl h'
    · right
      rw [h] at h'
      have e : w.bytes = b := hexText_inj (by injection h')
      refine ⟨w, h, hiff.2 ⟨?_, hm, hd⟩⟩
      have hs : (cs.map fun c => 115 + c.key.secSize).sum ≤ 180 * cs.length := by
        clear hiff hu hb h' h l1 hcl hco hc hnull hd
        induction cs with
        | nil => simp
        | cons c cs ih =>
          have : c.key.secSize ≤ 65 := by unfold PrivateKey.secSize; split <;> omega
          simp only [List.map_cons, List.sum_cons, List.length_cons]
          omega
      have hcs : ∀ n, countSize n ≤ 9 := by intro n; unfold countSize; split_ifs <;> omega
      have := hcs cs.length
      have := hcs ps.length
      rw [e]
      omega

/-- C112 is false of the code: a coin given twice is spent twice, and the payment is signed all the same. -/
theorem C112_twice_refuted (H : Hashes) (nonces : Nat → Nat → Nat) (hν : ∀ n, NoncesOk (nonces n)) (c : Coin) (hco : c.Ok)
    (p : Int × Address) (hpo : PayOk p) (hn : nullPoint ≠ (c.txId, c.index)) :
    Payment.run H (fun n => keySigner (nonces n)) [c, c] [p] = .error .rsZeroError ∨
    ∃ w : WireTx, Payment.run H (fun n => keySigner (nonces n)) [c, c] [p] = .ok (hexText w.bytes) ∧ ¬ Ref.Checks w := by
  rcases C112_payment_partial H nonces hν [c, c] [p] (by simp) (by simpa using hco) (by simp) (by simpa using hpo)
    (by simp) (by simp) (by simpa [coinPoints] using hn) with h | ⟨w, h, hiff⟩
  · exact .inl h
  · exact .inr ⟨w, h, fun hch => by simpa [coinPoints] using (hiff.1 hch).2.2⟩

/-- C112 is false of the code: more coins can be paid than there will ever be. -/
theorem C112_money_refuted (H : Hashes) (nonces : Nat → Nat → Nat) (hν : ∀ n, NoncesOk (nonces n)) (c : Coin) (hco : c.Ok)
    (p : Int × Address) (hpo : PayOk p) (hm : 2100000000000000 < p.1) (hn : nullPoint ≠ (c.txId, c.index)) :
    Payment.run H (fun n => keySigner (nonces n)) [c] [p] = .error .rsZeroError ∨
    ∃ w : WireTx, Payment.run H (fun n => keySigner (nonces n)) [c] [p] = .ok (hexText w.bytes) ∧ ¬ Ref.Checks w := by
  rcases C112_payment_partial H nonces hν [c] [p] (by simp) (by simpa using hco) (by simp) (by simpa using hpo)
    (by simp) (by simp) (by simpa [coinPoints] using hn) with h | ⟨w, h, hiff⟩
  · exact .inl h
  · refine .inr ⟨w, h, fun hch => ?_⟩
    have := (hiff.1 hch).2.1
    simp only [List.map_cons, List.map_nil, List.sum_cons, List.sum_nil] at this
    omega

/-- The coins of the example of C92 are distinct and not null. -/
example : nullPoint ∉ coinPoints sampleCoins ∧ (coinPoints sampleCoins).Nodup := by decide

/-- The transaction of the example of C34 passes the checks; with its input twice it does not. -/
example : sampleTx.InRange ∧ ¬ sampleTx.HasPushData ∧ sampleTx.amounts.sum ≤ 2100000000000000 ∧ sampleTx.points.Nodup ∧
    nullPoint ∉ sampleTx.points ∧ ¬ ({ sampleTx with inputs := sampleTx.inputs ++ sampleTx.inputs } : Transaction).points.Nodup :=
  ⟨sample_tx, by decide +kernel, by decide +kernel, by decide +kernel, by decide +kernel, by decide +kernel⟩

/-! ## C114 -/

/-- The transaction may be in a block of the height and the time whose transactions are compared to lock times: the lock
time is zero, or it has passed, or no input asks for it. -/
def Transaction.Unlocked (t : Transaction) (height time : Nat) : Prop :=
  t.lockTime = 0 ∨ (t.lockTime < 500000000 ∧ t.lockTime < height) ∨ (500000000 ≤ t.lockTime ∧ t.lockTime < time) ∨
    ∀ i ∈ t.inputs, i.seqNumber = 0xFFFFFFFF

/-- C114. The transactions that may be in a block, for every transaction that can be serialised. -/
theorem C114_iff (t : Transaction) (h : t.InRange) (hp : ¬ t.HasPushData) (height time : Nat) :
    ∃ w : WireTx, t.Shows w ∧ t.toBytes = .ok w.bytes ∧ (Ref.Final w height time ↔ t.Unlocked height time) := by
  obtain ⟨w, hs, hf, hb, -⟩ := C34_format t h hp
  refine ⟨w, hs, hb, ?_⟩
  have hq : (∀ i ∈ w.inputs, i.sequence = 2 ^ 32 - 1) ↔ ∀ i ∈ t.inputs, i.seqNumber = 0xFFFFFFFF := by
    have h2 := hs.2.1
    generalize w.inputs = ws at h2
    generalize t.inputs = is at h2
    induction h2 with
    | nil => simp
    | cons hx _ ih =>
      simp only [List.forall_mem_cons, ih]
      have := hx.2.2.2
      exact and_congr_left fun _ => by omega
  have hl := hs.2.2.2
  unfold Ref.Final Unlocked Ref.lockThreshold
  rw [hq]
  generalize (∀ i ∈ t.inputs, i.seqNumber = 0xFFFFFFFF) = Q
  by_cases hQ : Q
  · simp only [hQ, or_true]
  · simp only [hQ, or_false]
    split <;> omega

/-- C114, part that holds: if an input has another sequence number than the default, the transaction may be in a block
exactly if the lock time is zero or has passed.  Missing: with the default of all inputs the lock time has no effect. -/
theorem C114_obeyed_partial (t : Transaction) (h : t.InRange) (hp : ¬ t.HasPushData) (height time : Nat)
    (hi : ∃ i ∈ t.inputs, i.seqNumber ≠ 0xFFFFFFFF) :
    ∃ w : WireTx, t.Shows w ∧ t.toBytes = .ok w.bytes ∧ (Ref.Final w height time ↔
      t.lockTime = 0 ∨ (t.lockTime < 500000000 ∧ t.lockTime < height) ∨ (500000000 ≤ t.lockTime ∧ t.lockTime < time)) := by
  obtain ⟨w, hs, hb, hiff⟩ := C114_iff t h hp height time
  refine ⟨w, hs, hb, hiff.trans ?_⟩
  unfold Unlocked
  obtain ⟨i, hi, hne⟩ := hi
  have hall : ¬ ∀ i ∈ t.inputs, i.seqNumber = 0xFFFFFFFF := fun H => hne (H i hi)
  simp only [hall, or_false]

/-- C114 is false of the code: whatever the lock time, a transaction of inputs that `AddressInput.create` makes without a
sequence number may be in every block. -/
theorem C114_default_refuted (id : Text) (ix : Int) (a : Address) (o : Output) (lock : Int) (hid : TxIdOk id)
    (hix : 0 ≤ ix ∧ ix < 2 ^ 32) (ha : a.phash.length = 20) (ho : o.InRange) (hop : ¬ o.script.HasPushData)
    (hlock : 0 ≤ lock ∧ lock < 2 ^ 32) :
    ∃ x t, ∃ w : WireTx, AddressInput.create id ix a = .ok x ∧ Transaction.new [some x] [some o] lock = .ok t ∧
      t.lockTime = lock ∧ t.Shows w ∧ t.toBytes = .ok w.bytes ∧ ∀ height time, Ref.Final w height time := by
  obtain ⟨s, hs, hw⟩ := payToKey_wires a ha
  obtain ⟨he, hn, _⟩ := payToKey_encodable ha hw
  have hx : AddressInput.create id ix a = .ok ⟨.address, id, ix, s, Input.finalSeqNumber⟩ := by
    unfold AddressInput.create; rw [hs]
  have ht : Transaction.new [some ⟨.address, id, ix, s, Input.finalSeqNumber⟩] [some o] lock =
      .ok ⟨[⟨.address, id, ix, s, Input.finalSeqNumber⟩], [o], lock, 1⟩ :=
    (C33_accepts_iff _ _ _ _ _).2 ⟨⟨by simp, rfl⟩, ⟨by simp, rfl⟩, by omega, rfl, rfl⟩
  have hr : (⟨[⟨.address, id, ix, s, Input.finalSeqNumber⟩], [o], lock, 1⟩ : Transaction).InRange := by
    refine ⟨new_legal ht, by simp, ?_, by simpa using ho, by simp, by simp⟩
    intro i hi
    rw [List.mem_singleton] at hi
    subst hi
    exact ⟨hid, hix, he, by show (0 : Int) ≤ 0xFFFFFFFF ∧ (0xFFFFFFFF : Int) < 2 ^ 32; norm_num⟩
  have hnp : ¬ (⟨[⟨.address, id, ix, s, Input.finalSeqNumber⟩], [o], lock, 1⟩ : Transaction).HasPushData := by
    rintro (⟨i, hi, hq⟩ | ⟨i, hi, hq⟩)
    · rw [List.mem_singleton] at hi; subst hi; exact hn hq
    · rw [List.mem_singleton] at hi; subst hi; exact hop hq
  obtain ⟨w, hsh, hf, hb, -⟩ := C34_format _ hr hnp
  refine ⟨_, _, w, hx, ht, rfl, hsh, hb, fun height time => .inr (.inr ?_)⟩
  intro i hi
  have h2 := hsh.2.1
  obtain ⟨x', l, hx', hl, e⟩ := List.forall₂_cons_left_iff.1 h2
  cases hl
  rw [e, List.mem_singleton] at hi
  subst hi
  have := hx'.2.2.2
  simp only [Input.finalSeqNumber] at this
  omega

/-- C114. Signing changes nothing about it. -/
theorem C114_sign (H : Hashes) (S : Signer) (t u : Transaction) (ks : List PrivateKey) (i st : Int)
    (h : t.sign H S ks i st = .ok u) (height time : Nat) : u.Unlocked height time ↔ t.Unlocked height time := by
  obtain ⟨-, hl, -, hlen, hne, heq⟩ := C37_frame H S t u ks i st h
  have key : ∀ n : Nat, (u.inputs[n]?.map Input.seqNumber) = (t.inputs[n]?.map Input.seqNumber) := by
    intro n
    by_cases e : (n : Int) = i
    · obtain ⟨x, y, p, hx, hy, -, -, -, -, hq, -⟩ := heq n e
      rw [hx, hy, Option.map_some, Option.map_some, hq]
    · rw [hne n e]
  have hq : u.inputs.map Input.seqNumber = t.inputs.map Input.seqNumber := by
    apply List.ext_getElem?
    intro n
    rw [List.getElem?_map, List.getElem?_map, key]
  have hall : (∀ i ∈ u.inputs, i.seqNumber = 0xFFFFFFFF) ↔ ∀ i ∈ t.inputs, i.seqNumber = 0xFFFFFFFF := by
    rw [← List.forall_mem_map (f := Input.seqNumber) (P := fun s => s = 0xFFFFFFFF), hq, List.forall_mem_map]
  unfold Unlocked
  rw [hl, hall]

/-- The payments of the examples may always be in a block. -/
theorem C114_payment (H : Hashes) (nonces : Nat → Nat → Nat) (hν : ∀ n, NoncesOk (nonces n)) (cs : List Coin)
    (ps : List (Int × Address)) (hc : cs ≠ []) (hco : ∀ c ∈ cs, c.Ok) (hp : ps ≠ []) (hpo : ∀ p ∈ ps, PayOk p)
    (hcl : cs.length < 2 ^ 63) (hpl : ps.length < 2 ^ 63) :
    Payment.run H (fun n => keySigner (nonces n)) cs ps = .error .rsZeroError ∨
    ∃ w : WireTx, Payment.run H (fun n => keySigner (nonces n)) cs ps = .ok (hexText w.bytes) ∧
      ∀ height time, Ref.Final w height time := by
  rcases C92_run H nonces hν cs ps hc hco hp hpo hcl hpl with h | ⟨w, h1, _, h3, _⟩
  · exact .inl h
  · exact .inr ⟨w, h1, fun _ _ => .inl h3⟩

/-- A transaction locked until height 400000 with an input that asks for it, and one with the default. -/
example : ¬ ({ sampleTx with lockTime := 400000, inputs := [{ sampleInput with seqNumber := 0 }] } : Transaction).Unlocked 400000 0 ∧
    ({ sampleTx with lockTime := 400000, inputs := [{ sampleInput with seqNumber := 0 }] } : Transaction).Unlocked 400001 0 ∧
    ({ sampleTx with lockTime := 400000, inputs := [{ sampleInput with seqNumber := 0xFFFFFFFF }] } : Transaction).Unlocked 0 0 := by
  unfold Unlocked; decide +kernel

end Bitforge
