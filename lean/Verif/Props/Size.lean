import Verif.Props.Payment
import Verif.Props.TextKind

/-! # C103: the size of a transaction -/

namespace Bitforge
open Spec Transaction

/-- The bytes that a count takes on the wire. -/
def countSize (n : Nat) : Nat := if n < 253 then 1 else if n < 2 ^ 16 then 3 else if n < 2 ^ 32 then 5 else 9

theorem compactSize_length (n : Nat) : (compactSize n).length = countSize n := by
  unfold compactSize countSize
  by_cases h1 : n < 253
  · rw [dif_pos h1, if_pos h1]; rfl
  · rw [dif_neg h1, if_neg h1]
    by_cases h2 : n < 2 ^ 16
    · rw [if_pos h2, if_pos h2, List.length_cons, le_length]
    · rw [if_neg h2, if_neg h2]
      by_cases h3 : n < 2 ^ 32
      · rw [if_pos h3, if_pos h3, List.length_cons, le_length]
      · rw [if_neg h3, if_neg h3, List.length_cons, le_length]

/-- The bytes of the script of `l` bytes with the count before it. -/
def scriptSize (l : Nat) : Nat := countSize l + l

/-- The script and the text of the identifier give the size of an input: 40 bytes and the script, if the identifier has
64 digits. -/
def Input.Size (i : Input) (n : Nat) : Prop := ∃ b, i.script.toBytes = .ok b ∧ 2 * n = i.txId.length + 2 * (8 + scriptSize b.length)

/-- The script gives the size of an output. -/
def Output.Size (o : Output) (n : Nat) : Prop := ∃ b, o.script.toBytes = .ok b ∧ n = 8 + scriptSize b.length

theorem input_size {i : Input} {b : Bytes} (h : i.toBytes = .ok b) : i.Size b.length := by
  unfold Input.toBytes at h
  cases hs : i.script.toBytes with
  | error e => rw [hs] at h; cases h
  | ok s =>
    rw [hs] at h
    simp only [] at h
    cases hd : decodeHex i.txId with
    | error e => rw [hd] at h; cases h
    | ok id =>
      rw [hd] at h
      cases h
      refine ⟨s, hs, ?_⟩
      rw [decodeHex_length hd]
      simp only [Buffer.write, List.length_append, encodeInt_little_length, encodeVarint_compact, compactSize_length,
        List.length_reverse, List.length_nil, scriptSize]
      omega

theorem output_size {o : Output} {b : Bytes} (h : o.toBytes = .ok b) : o.Size b.length := by
  unfold Output.toBytes at h
  cases hs : o.script.toBytes with
  | error e => rw [hs] at h; cases h
  | ok s =>
    rw [hs] at h
    cases h
    refine ⟨s, hs, ?_⟩
    simp only [Buffer.write, List.length_append, encodeInt_little_length, encodeVarint_compact, compactSize_length,
      List.length_nil, scriptSize]
    omega

theorem writeAll_size {α : Type} (f : α → Except Err Bytes) (P : α → Nat → Prop) (hf : ∀ x b, f x = .ok b → P x b.length) :
    ∀ (xs : List α) (buf out : Bytes), writeAll f xs buf = .ok out →
      ∃ ns, List.Forall₂ P xs ns ∧ out.length = buf.length + ns.sum
  | [], buf, out, h => by cases h; exact ⟨[], .nil, rfl⟩
  | x :: xs, buf, out, h => by
    unfold writeAll at h
    cases hx : f x with
    | error e => rw [hx] at h; cases h
    | ok b =>
      rw [hx] at h
      obtain ⟨ns, h1, h2⟩ := writeAll_size f P hf xs _ out h
      refine ⟨b.length :: ns, .cons (hf x b hx) h1, ?_⟩
      rw [h2, List.sum_cons]
      simp only [Buffer.write, List.length_append]
      omega

/-- The size of every transaction that can be serialised: eight bytes, the two counts, the inputs and the outputs. -/
theorem C103_size (t : Transaction) (b : Bytes) (h : t.toBytes = .ok b) :
    ∃ is os, List.Forall₂ Input.Size t.inputs is ∧ List.Forall₂ Output.Size t.outputs os ∧
      b.length = 8 + countSize t.inputs.length + is.sum + countSize t.outputs.length + os.sum := by
  unfold Transaction.toBytes at h
  simp only [] at h
  split at h
  · cases h
  · rename_i b1 h1
    split at h
    · cases h
    · rename_i b2 h2
      cases h
      obtain ⟨is, f1, e1⟩ := writeAll_size _ _ (fun _ _ => input_size) _ _ _ h1
      obtain ⟨os, f2, e2⟩ := writeAll_size _ _ (fun _ _ => output_size) _ _ _ h2
      refine ⟨is, os, f1, f2, ?_⟩
      simp only [Buffer.write, List.length_append, encodeInt_little_length, encodeVarint_compact, compactSize_length,
        List.length_nil] at e1 e2 ⊢
      omega

theorem sizes_unique {α : Type} {P : α → Nat → Prop} (hP : ∀ x m n, P x m → P x n → m = n) {xs : List α} {ms ns : List Nat}
    (h1 : List.Forall₂ P xs ms) (h2 : List.Forall₂ P xs ns) : ms = ns := by
  induction h1 generalizing ns with
  | nil => cases h2; rfl
  | cons p _ ih => cases h2 with | cons q qs => rw [hP _ _ _ p q, ih qs]

/-- What was measured is the same for the whole of the transaction but the input that is signed. -/
theorem sum_at {α : Type} {P : α → Nat → Prop} (hP : ∀ x m n, P x m → P x n → m = n) {xs ys : List α} {ms ns : List Nat}
    (h1 : List.Forall₂ P xs ms) (h2 : List.Forall₂ P ys ns) (hl : xs.length = ys.length) {n : Nat} {x y : α}
    (hx : xs[n]? = some x) (hy : ys[n]? = some y) (he : ∀ k, k ≠ n → ys[k]? = xs[k]?) :
    ∃ a b, P x a ∧ P y b ∧ ms.sum + b = ns.sum + a := by
  induction h1 generalizing ys ns n with
  | nil => cases hx
  | @cons x0 m0 xs ms p0 hms ih =>
    cases h2 with
    | nil => cases hy
    | @cons y0 n0 ys ns q0 q =>
      cases n with
      | zero =>
        cases hx
        cases hy
        have e : ys = xs := List.ext_getElem? fun k => by simpa using he (k + 1) (by omega)
        subst e
        have e : ms = ns := sizes_unique hP hms q
        subst e
        exact ⟨m0, n0, p0, q0, by simp only [List.sum_cons]; omega⟩
      | succ n =>
        have e0 : y0 = x0 := by simpa using he 0 (by omega)
        subst e0
        obtain ⟨a, b, pa, pb, e⟩ := ih q (by simpa using hl) (by simpa using hx) (by simpa using hy)
          fun k hk => by simpa using he (k + 1) (by omega)
        exact ⟨a, b, pa, pb, by rw [hP _ _ _ p0 q0]; simp only [List.sum_cons]; omega⟩

theorem input_size_unique (i : Input) (m n : Nat) (h1 : i.Size m) (h2 : i.Size n) : m = n := by
  obtain ⟨b, e1, e2⟩ := h1
  obtain ⟨c, f1, f2⟩ := h2
  rw [e1] at f1
  cases f1
  omega

theorem output_size_unique (o : Output) (m n : Nat) (h1 : o.Size m) (h2 : o.Size n) : m = n := by
  obtain ⟨b, e1, e2⟩ := h1
  obtain ⟨c, f1, f2⟩ := h2
  rw [e1] at f1
  cases f1
  omega

/-- Signing changes the size by what the script of the input changes in size, whoever signs and whatever is signed. -/
theorem C103_sign (H : Hashes) (S : Signer) (t u : Transaction) (ks : List PrivateKey) (n : Nat) (st : Int) (b c : Bytes)
    (hb : t.toBytes = .ok b) (h : t.sign H S ks n st = .ok u) (hc : u.toBytes = .ok c) :
    ∃ x y sx sy, t.inputs[n]? = some x ∧ u.inputs[n]? = some y ∧ x.script.toBytes = .ok sx ∧ y.script.toBytes = .ok sy ∧
      c.length + scriptSize sx.length = b.length + scriptSize sy.length := by
  obtain ⟨is, os, f1, f2, e1⟩ := C103_size t b hb
  obtain ⟨js, ps, g1, g2, e2⟩ := C103_size u c hc
  obtain ⟨_, _, a3, a4, a5, a6⟩ := C37_frame H S t u ks n st h
  obtain ⟨x, y, _, hx, hy, _, _, hid, _⟩ := a6 n rfl
  obtain ⟨p, q, ⟨sx, hp, hp'⟩, ⟨sy, hq, hq'⟩, e⟩ := sum_at input_size_unique f1 g1 a4.symm hx hy
    fun k hk => a5 k (by omega)
  rw [a3] at g2 e2
  rw [a4] at e2
  rw [sizes_unique output_size_unique f2 g2] at e1
  rw [hid] at hq'
  exact ⟨x, y, sx, sy, hx, hy, hp, hq, by omega⟩

/-- The bytes of the public key that belongs to a private key. -/
def PrivateKey.secSize (k : PrivateKey) : Nat := if k.compressed then 33 else 65

theorem toPublicKey_size {k : PrivateKey} {p : PublicKey} {b : Bytes} (h : k.toPublicKey = .ok p) (hb : p.toBytes = .ok b) :
    b.length = k.secSize := by
  have hc : p.compressed = k.compressed := by
    unfold PrivateKey.toPublicKey PublicKey.fromPrivateKey at h
    split at h
    · cases h
    · cases h
    · unfold PublicKey.new at h
      split at h
      · cases h
      · split at h
        · cases h; rfl
        · cases h
  rw [sec_length hb, hc]
  rfl

theorem hexText_len (b : Bytes) : (hexText b).length = 2 * b.length := by
  unfold hexText
  induction b with
  | nil => rfl
  | cons x b ih =>
    simp only [List.map_cons, List.flatten_cons, List.length_append, List.length_cons, List.length_nil] at ih ⊢
    omega

theorem shortPush_length (b : Bytes) : (shortPush b).length = b.length + 1 := by simp [shortPush]

theorem scriptSize_small {n : Nat} (h : n < 253) : scriptSize n = n + 1 := by
  unfold scriptSize countSize
  rw [if_pos h]
  omega

/-- An input that `AddressInput.create` makes grows by between 19 and 82 bytes when it is signed with a compressed key,
by between 51 and 114 with another. -/
theorem C103_address (H : Hashes) (nonces : Nat → Nat) (hν : NoncesOk nonces) (t u : Transaction) (k : PrivateKey)
    (hk : k.Good) (n : Nat) (x : Input) (id : Text) (ix : Int) (a : Address) (ha : a.phash.length = 20) (ht : Serialisable t)
    (hx : t.inputs[n]? = some x) (hcr : AddressInput.create id ix a = .ok x) (h : t.sign H (keySigner nonces) [k] n = .ok u) :
    ∃ b c, t.toBytes = .ok b ∧ u.toBytes = .ok c ∧ b.length + 9 + k.secSize ≤ c.length + 23 ∧
      c.length + 23 ≤ b.length + 72 + k.secSize := by
  obtain ⟨s, hs, hw⟩ := payToKey_wires a ha
  unfold AddressInput.create at hcr
  rw [hs] at hcr
  cases hcr
  obtain ⟨_, hn, _⟩ := payToKey_encodable ha hw
  have hsb := script_toBytes s _ (hw ▸ payToKey_encodes a.phash ha)
  replace hsb := hsb.trans (if_neg hn)
  obtain ⟨hu, y, sb, pb, p, hy, _, hyw, hye, hp, hpb, h9, h72⟩ := sign_serialisable H nonces hν t u k hk n _ ht hx rfl h
  obtain ⟨w, _, _, hb, _⟩ := serialisable_trip ht
  obtain ⟨v, _, _, hc, _⟩ := serialisable_trip hu
  obtain ⟨x', y', sx, sy, e1, e2, e3, e4, e5⟩ := C103_sign H _ t u [k] n 1 _ _ hb h hc
  rw [hx] at e1
  cases e1
  rw [hy] at e2
  cases e2
  simp only [hsb] at e3
  cases e3
  have hyn : ¬ y.script.HasPushData := fun hq => hu.2.1 (.inl ⟨y, List.mem_of_getElem? hy, hq⟩)
  have hyb := script_toBytes y.script _ hye
  replace hyb := hyb.trans (if_neg hyn)
  rw [e4] at hyb
  cases hyb
  have hl := toPublicKey_size hp hpb
  have hl' : pb.length ≤ 65 := by rw [hl]; unfold PrivateKey.secSize; split <;> omega
  rw [scriptSize_small (by simp [ha]), scriptSize_small (by simp only [List.length_append, shortPush_length]; omega)] at e5
  simp only [List.length_append, List.length_cons, List.length_nil, shortPush_length, ha] at e5
  exact ⟨_, _, hb, hc, by omega, by omega⟩

theorem flatten_bounds {α β : Type} {R : α → β → Prop} (g : β → Bytes) (lo hi : α → Nat)
    (hg : ∀ x y, R x y → lo x ≤ (g y).length ∧ (g y).length ≤ hi x) {xs : List α} {ys : List β} (h : List.Forall₂ R xs ys) :
    (xs.map lo).sum ≤ (ys.map g).flatten.length ∧ (ys.map g).flatten.length ≤ (xs.map hi).sum := by
  induction h with
  | nil => simp
  | cons p _ ih =>
    have := hg _ _ p
    simp only [List.map_cons, List.sum_cons, List.flatten_cons, List.length_append]
    omega

theorem const_sum {α : Type} (xs : List α) (n : Nat) : (xs.map fun _ => n).sum = n * xs.length := by
  induction xs with
  | nil => rfl
  | cons x xs ih => rw [List.map_cons, List.sum_cons, ih, List.length_cons]; ring

/-- The size of the payments of the examples is known before they are signed, up to the size of the signatures: 34 bytes
for each payment and 52 to 115 bytes beside the public key for each coin. -/
theorem C103_payment (H : Hashes) (nonces : Nat → Nat → Nat) (hν : ∀ n, NoncesOk (nonces n)) (cs : List Coin)
    (ps : List (Int × Address)) (hc : cs ≠ []) (hco : ∀ c ∈ cs, c.Ok) (hp : ps ≠ []) (hpo : ∀ p ∈ ps, PayOk p)
    (hcl : cs.length < 2 ^ 63) (hpl : ps.length < 2 ^ 63) :
    Payment.run H (fun n => keySigner (nonces n)) cs ps = .error .rsZeroError ∨
    ∃ (b : Bytes) (base : Nat), Payment.run H (fun n => keySigner (nonces n)) cs ps = .ok (hexText b) ∧
      base = 8 + countSize cs.length + countSize ps.length + 34 * ps.length ∧
      base + (cs.map fun c => 52 + c.key.secSize).sum ≤ b.length ∧
      b.length ≤ base + (cs.map fun c => 115 + c.key.secSize).sum := by
  rcases C92_run H nonces hν cs ps hc hco hp hpo hcl hpl with h | ⟨w, h1, _, _, h4, h5, _, h7⟩
  · exact .inl h
  · right
    have hi : List.Forall₂ (fun (c : Coin) (x : WireIn) => 52 + c.key.secSize ≤ x.bytes.length ∧
        x.bytes.length ≤ 115 + c.key.secSize) cs w.inputs := by
      rw [List.forall₂_iff_get]
      refine ⟨h4.length_eq, fun n l1 l2 => ?_⟩
      obtain ⟨s1, _, _⟩ := (List.forall₂_iff_get.1 h4).2 n l1 l2
      have hid := (hco _ (List.get_mem cs ⟨n, l1⟩)).1.1
      rw [s1, hexText_len, List.length_reverse] at hid
      obtain ⟨sb, b, h, ⟨p, hpk, hpb, _⟩, hsc, hsl, _⟩ := h7 n _ _ (List.getElem?_eq_getElem l1) (List.getElem?_eq_getElem l2)
      have hl := toPublicKey_size hpk hpb
      have hl' : b.length ≤ 65 := by rw [hl]; unfold PrivateKey.secSize; split <;> omega
      simp only [List.get_eq_getElem] at *
      have hss := scriptSize_small (n := w.inputs[n].script.length) (by
        rw [hsc]; simp only [List.length_append, shortPush_length]; omega)
      have hsl' : w.inputs[n].script.length = sb.length + b.length + 2 := by
        rw [hsc]; simp only [List.length_append, shortPush_length]; omega
      unfold scriptSize at hss
      simp only [WireIn.bytes, List.length_append, le_length, compactSize_length]
      omega
    have ho : List.Forall₂ (fun (_ : Int × Address) (o : WireOut) => 34 ≤ o.bytes.length ∧ o.bytes.length ≤ 34) ps w.outputs := by
      rw [List.forall₂_iff_get]
      refine ⟨h5.length_eq, fun n l1 l2 => ?_⟩
      obtain ⟨_, s2⟩ := (List.forall₂_iff_get.1 h5).2 n l1 l2
      have hl := (hpo _ (List.get_mem ps ⟨n, l1⟩)).2
      have hsl : (payScript (ps.get ⟨n, l1⟩).2.phash).length = 25 := by
        simp only [payScript, List.length_cons, List.length_append, hl, List.length_nil]
      have hss := scriptSize_small (n := (w.outputs.get ⟨n, l2⟩).script.length) (by rw [s2, hsl]; omega)
      unfold scriptSize at hss
      simp only [WireOut.bytes, List.length_append, le_length, compactSize_length]
      rw [s2, hsl] at hss ⊢
      omega
    have bi := flatten_bounds WireIn.bytes (fun c : Coin => 52 + c.key.secSize) (fun c => 115 + c.key.secSize) (fun _ _ h => h) hi
    have bo := flatten_bounds WireOut.bytes (fun _ : Int × Address => 34) (fun _ => 34) (fun _ _ h => h) ho
    rw [const_sum] at bo
    refine ⟨_, _, h1, rfl, ?_, ?_⟩
    all_goals
      simp only [WireTx.bytes, List.length_append, le_length, compactSize_length, ← h4.length_eq, ← h5.length_eq]
      omega

/-- With the coins of the example of C92, one of them of a compressed key, and one payment: 246 to 372 bytes. -/
example : 8 + countSize sampleCoins.length + countSize 1 + 34 * 1 + (sampleCoins.map fun c => 52 + c.key.secSize).sum = 246 ∧
    8 + countSize sampleCoins.length + countSize 1 + 34 * 1 + (sampleCoins.map fun c => 115 + c.key.secSize).sum = 372 := by
  decide

/-- A transaction of two inputs and an output, of 104 bytes. -/
example : ((⟨[⟨.generic, List.replicate 64 'a', 0, ⟨.generic, []⟩, 5⟩,
    ⟨.generic, List.replicate 64 '0', 1, ⟨.generic, [⟨.num 1, some ⟨.str, [7]⟩⟩]⟩, 5⟩], [⟨.generic, 3, ⟨.generic, [⟨.num 172, none⟩]⟩⟩], 0,
    1⟩ : Transaction).toBytes.map List.length).toOption = some (8 + 1 + (41 + 43) + 1 + 10) := by
  decide +kernel

end Bitforge
