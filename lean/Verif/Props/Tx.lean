import Verif.RealHashes
import Verif.Proofs.Tx
import Verif.Props.Template

/-! # C33–C36, C44: transactions and their serialisation -/

namespace Bitforge
open Spec

/-! ## C33 construction -/

/-- C33. The constructor accepts exactly the non-empty lists of Inputs and of Outputs with a lock time of 32 bits,
and stores its arguments. -/
theorem C33_accepts_iff (is : List (Option Input)) (os : List (Option Output)) (l v : Int) (t : Transaction) :
    Transaction.new is os l v = .ok t ↔
      (is ≠ [] ∧ is = t.inputs.map some) ∧ (os ≠ [] ∧ os = t.outputs.map some) ∧ (0 ≤ l ∧ l ≤ 2 ^ 32 - 1) ∧
        t.lockTime = l ∧ t.version = v := by
  constructor
  · intro h
    unfold Transaction.new at h
    split at h
    · cases h
    · next hi =>
      rcases mapM_id is with ⟨_, hn⟩ | ⟨is', rfl, hs⟩
      · rw [hn] at h; cases h
      · rw [hs] at h
        simp only [] at h
        split at h
        · cases h
        · next ho =>
          rcases mapM_id os with ⟨_, hn⟩ | ⟨os', rfl, hs'⟩
          · rw [hn] at h; cases h
          · rw [hs'] at h
            simp only [] at h
            split at h
            · cases h
            · cases h
              refine ⟨⟨fun e => hi (by rw [e]; rfl), rfl⟩, ⟨fun e => ho (by rw [e]; rfl), rfl⟩, by omega, rfl, rfl⟩
  · rintro ⟨⟨hi, rfl⟩, ⟨ho, rfl⟩, hl, rfl, rfl⟩
    rw [new_some t.inputs t.outputs _ _ (by rintro e; simp [e] at hi) (by rintro e; simp [e] at ho) (by omega)]

/-- C33. Which exception is raised, the checks being made in this order. -/
theorem C33_errors (is : List (Option Input)) (os : List (Option Output)) (l v : Int) :
    (is = [] → Transaction.new is os l v = .error .txNoInputs) ∧
    (is ≠ [] → none ∈ is → Transaction.new is os l v = .error .txNotAnInput) ∧
    (is ≠ [] → none ∉ is → os = [] → Transaction.new is os l v = .error .txNoOutputs) ∧
    (is ≠ [] → none ∉ is → os ≠ [] → none ∈ os → Transaction.new is os l v = .error .txNotAnOutput) ∧
    (is ≠ [] → none ∉ is → os ≠ [] → none ∉ os → ¬ (0 ≤ l ∧ l ≤ 2 ^ 32 - 1) →
      Transaction.new is os l v = .error .txInvalidLockTime) := by
  have nn : ∀ {α : Type} (ys : List α), none ∉ ys.map some := by simp
  refine ⟨?_, ?_, ?_, ?_, ?_⟩ <;> intro h
  · subst h; rfl
  · intro h2
    unfold Transaction.new
    rw [if_neg (by simpa using h)]
    rcases mapM_id is with ⟨_, hn⟩ | ⟨is', rfl, hs⟩
    · rw [hn]
    · exact absurd h2 (nn _)
  · intro h2 h3
    subst h3
    unfold Transaction.new
    rw [if_neg (by simpa using h)]
    rcases mapM_id is with ⟨hn, _⟩ | ⟨is', rfl, hs⟩
    · exact absurd hn h2
    · rw [hs]; rfl
  · intro h2 h3 h4
    unfold Transaction.new
    rw [if_neg (by simpa using h)]
    rcases mapM_id is with ⟨hn, _⟩ | ⟨is', rfl, hs⟩
    · exact absurd hn h2
    · rw [hs]
      simp only []
      rw [if_neg (by simpa using h3)]
      rcases mapM_id os with ⟨_, hn⟩ | ⟨os', rfl, hs'⟩
      · rw [hn]
      · exact absurd h4 (nn _)
  · intro h2 h3 h4 h5
    unfold Transaction.new
    rw [if_neg (by simpa using h)]
    rcases mapM_id is with ⟨hn, _⟩ | ⟨is', rfl, hs⟩
    · exact absurd hn h2
    · rw [hs]
      simp only []
      rw [if_neg (by simpa using h3)]
      rcases mapM_id os with ⟨hn, _⟩ | ⟨os', rfl, hs'⟩
      · exact absurd hn h4
      · rw [hs']
        simp only []
        rw [if_pos (by omega)]

/-- What every transaction object satisfies. -/
def Transaction.Legal (t : Transaction) : Prop := t.inputs ≠ [] ∧ t.outputs ≠ [] ∧ 0 ≤ t.lockTime ∧ t.lockTime < 2 ^ 32

theorem new_legal {is : List (Option Input)} {os : List (Option Output)} {l v : Int} {t : Transaction}
    (h : Transaction.new is os l v = .ok t) : t.Legal := by
  obtain ⟨⟨hi, rfl⟩, ⟨ho, rfl⟩, hl, rfl, rfl⟩ := (C33_accepts_iff _ _ _ _ _).1 h
  exact ⟨by rintro e; simp [e] at hi, by rintro e; simp [e] at ho, by omega⟩

/-- C33. Whichever way a transaction is made, it is legal: constructed, parsed, with its inputs replaced, signed. -/
theorem C33_invariant (t : Transaction)
    (h : (∃ is os l v, Transaction.new is os l v = .ok t) ∨ (∃ b, Transaction.fromBytes b = .ok t) ∨
      (∃ x, Transaction.fromHex x = .ok t) ∨ (∃ u is, Transaction.replaceInputs u is = .ok t) ∨
      (∃ H S u ks i st, Transaction.sign H S u ks i st = .ok t)) : t.Legal := by
  have hb : ∀ b, Transaction.fromBytes b = .ok t → t.Legal := by
    intro b h
    unfold Transaction.fromBytes at h
    rcases hr : Transaction.fromBuffer b with ⟨r, s⟩
    rw [hr] at h
    simp only at h
    subst h
    unfold Transaction.fromBuffer at hr
    obtain ⟨_, _, _, h⟩ := Rd.bind_ok_iff.1 hr
    obtain ⟨_, _, _, h⟩ := Rd.bind_ok_iff.1 h
    obtain ⟨_, _, _, h⟩ := Rd.bind_ok_iff.1 h
    obtain ⟨_, _, _, h⟩ := Rd.bind_ok_iff.1 h
    obtain ⟨_, _, _, h⟩ := Rd.bind_ok_iff.1 h
    obtain ⟨_, _, _, h⟩ := Rd.bind_ok_iff.1 h
    obtain ⟨_, _, _, h⟩ := Rd.bind_ok_iff.1 h
    obtain ⟨_, _, _, h⟩ := Rd.bind_ok_iff.1 h
    simp only [Rd.lift, Prod.mk.injEq] at h
    exact new_legal h.1
  rcases h with ⟨is, os, l, v, h⟩ | ⟨b, h⟩ | ⟨x, h⟩ | ⟨u, is, h⟩ | ⟨H, S, u, ks, i, st, h⟩
  · exact new_legal h
  · exact hb b h
  · unfold Transaction.fromHex at h
    split at h
    · cases h
    · exact hb _ h
  · exact new_legal h
  · unfold Transaction.sign at h
    split at h
    · cases h
    · split at h
      · cases h
      · split at h
        · cases h
        · exact new_legal h

/-- A plain input and output used in the examples. -/
def sampleInput : Input := ⟨.generic, List.replicate 64 'a', 1, ⟨.generic, [⟨.num 81, none⟩]⟩, 0xFFFFFFFF⟩
def sampleOutput : Output := ⟨.generic, 5000, ⟨.generic, [⟨.num 2, some ⟨.str, [7, 8]⟩⟩]⟩⟩

example : Transaction.new [some sampleInput] [some sampleOutput] (2 ^ 32 - 1) 1 =
      .ok ⟨[sampleInput], [sampleOutput], 2 ^ 32 - 1, 1⟩ ∧
    Transaction.new [some sampleInput] [some sampleOutput] (2 ^ 32) 1 = .error .txInvalidLockTime ∧
    Transaction.new [some sampleInput, none] [] (2 ^ 32) 1 = .error .txNotAnInput := by decide +kernel

/-! ## In-range objects -/

/-- A transaction id: 64 lower-case hexadecimal digits. -/
def TxIdOk (t : Text) : Prop := t.length = 64 ∧ ∀ c ∈ t, c ∈ "0123456789abcdef".toList

/-- The script is made of well-formed instructions and is shorter than 2^64 bytes. -/
def Script.Encodable (s : Script) : Prop := ∃ b, Encodes s.wires b ∧ b.length < 2 ^ 64

def Input.InRange (i : Input) : Prop :=
  TxIdOk i.txId ∧ (0 ≤ i.txoIndex ∧ i.txoIndex < 2 ^ 32) ∧ i.script.Encodable ∧ (0 ≤ i.seqNumber ∧ i.seqNumber < 2 ^ 32)

def Output.InRange (o : Output) : Prop := (0 ≤ o.amount ∧ o.amount < 2 ^ 64) ∧ o.script.Encodable

def Transaction.InRange (t : Transaction) : Prop :=
  t.Legal ∧ (0 ≤ t.version ∧ t.version < 2 ^ 32) ∧ (∀ i ∈ t.inputs, i.InRange) ∧ (∀ o ∈ t.outputs, o.InRange) ∧
    t.inputs.length < 2 ^ 63 ∧ t.outputs.length < 2 ^ 63

theorem txIdOk_iff (t : Text) : TxIdOk t ↔ ∃ b : Bytes, b.length = 32 ∧ t = hexText b.reverse := by
  constructor
  · rintro ⟨hl, hc⟩
    obtain ⟨b, hb, he⟩ := (hexLower_iff t).1 ⟨by omega, hc⟩
    refine ⟨b.reverse, by rw [List.length_reverse]; omega, ?_⟩
    rw [List.reverse_reverse, hexText_eq, hb]
  · rintro ⟨b, hl, rfl⟩
    rw [hexText_eq]
    have := (hexLower_iff (encodeHex b.reverse)).2 ⟨b.reverse, rfl, by rw [encodeHex_length]⟩
    exact ⟨by rw [encodeHex_length, List.length_reverse, hl], this.2⟩

theorem input_shows (i : Input) (h : i.InRange) : ∃ w, i.Shows w ∧ w.Fits := by
  obtain ⟨h1, h2, ⟨b, hb, hbl⟩, h4⟩ := h
  obtain ⟨id, hid, he⟩ := (txIdOk_iff _).1 h1
  refine ⟨⟨id, i.txoIndex.toNat, b, i.seqNumber.toNat⟩, ⟨he, ?_, hb, ?_⟩, hid, ?_, hbl, ?_⟩
  · show i.txoIndex = (i.txoIndex.toNat : Int); omega
  · show i.seqNumber = (i.seqNumber.toNat : Int); omega
  · show i.txoIndex.toNat < _; omega
  · show i.seqNumber.toNat < _; omega

theorem output_shows (o : Output) (h : o.InRange) : ∃ w, o.Shows w ∧ w.Fits := by
  obtain ⟨h1, ⟨b, hb, hbl⟩⟩ := h
  refine ⟨⟨o.amount.toNat, b⟩, ⟨?_, hb⟩, ?_, hbl⟩
  · show o.amount = (o.amount.toNat : Int); omega
  · show o.amount.toNat < _; omega

theorem forall₂_exists {α β : Type} {R : α → β → Prop} {P : β → Prop} : ∀ (xs : List α),
    (∀ x ∈ xs, ∃ y, R x y ∧ P y) → ∃ ys, List.Forall₂ R xs ys ∧ ∀ y ∈ ys, P y
  | [], _ => ⟨[], .nil, by simp⟩
  | x :: xs, h => by
    obtain ⟨y, h1, h2⟩ := h x (by simp)
    obtain ⟨ys, h3, h4⟩ := forall₂_exists xs fun z hz => h z (by simp [hz])
    exact ⟨y :: ys, .cons h1 h3, by simpa using ⟨h2, h4⟩⟩

/-- Every in-range transaction stands for a wire transaction. -/
theorem tx_shows (t : Transaction) (h : t.InRange) : ∃ w, t.Shows w ∧ w.Fits := by
  obtain ⟨⟨_, _, hl⟩, hv, hi, ho, hil, hol⟩ := h
  obtain ⟨wi, h1, h2⟩ := forall₂_exists (P := WireIn.Fits) t.inputs fun i hm => input_shows i (hi i hm)
  obtain ⟨wo, h3, h4⟩ := forall₂_exists (P := WireOut.Fits) t.outputs fun i hm => output_shows i (ho i hm)
  refine ⟨⟨t.version.toNat, wi, wo, t.lockTime.toNat⟩, ⟨?_, h1, h3, ?_⟩, ?_, ?_, h2, h4, ?_, ?_⟩
  · show t.version = (t.version.toNat : Int); omega
  · show t.lockTime = (t.lockTime.toNat : Int); omega
  · show t.version.toNat < _; omega
  · show t.lockTime.toNat < _; omega
  · show wi.length < _; rw [← h1.length_eq]; exact hil
  · show wo.length < _; rw [← h3.length_eq]; exact hol

theorem shows_inRange (t : Transaction) (w : WireTx) (hl : t.Legal) (h : t.Shows w) (hw : w.Fits) : t.InRange := by
  obtain ⟨h1, h2, h3, h4⟩ := h
  obtain ⟨f1, f2, f3, f4, f5, f6⟩ := hw
  refine ⟨hl, by omega, ?_, ?_, by rw [h2.length_eq]; exact f5, by rw [h3.length_eq]; exact f6⟩
  · intro i hi
    obtain ⟨x, hx, e1, e2, e3, e4⟩ := forall₂_mem_left h2 hi
    obtain ⟨g1, g2, g3, g4⟩ := f3 x hx
    exact ⟨(txIdOk_iff _).2 ⟨x.txid, g1, e1⟩, by omega, ⟨x.script, e3, g3⟩, by omega⟩
  · intro o ho
    obtain ⟨x, hx, e1, e2⟩ := forall₂_mem_left h3 ho
    obtain ⟨g1, g2⟩ := f4 x hx
    exact ⟨by omega, x.script, e2, g2⟩

theorem sample_input : sampleInput.InRange := by
  refine ⟨⟨rfl, ?_⟩, by decide, ⟨[81], .cons (b := [81]) (bs := []) (by decide) rfl .nil, by decide⟩, by decide⟩
  intro c hc
  rw [show sampleInput.txId = List.replicate 64 'a' from rfl] at hc
  rw [List.eq_of_mem_replicate hc]
  decide

theorem sample_output : sampleOutput.InRange :=
  ⟨by decide, [2, 7, 8], .cons (b := [2, 7, 8]) (bs := []) (by decide)
    (by simp only [IsWire, show sampleOutput.script.instructions = [⟨.num 2, some ⟨.str, [7, 8]⟩⟩] from rfl]; rfl) .nil, by decide⟩

/-- The transaction of the examples. -/
def sampleTx : Transaction := ⟨[sampleInput], [sampleOutput, sampleOutput], 7, 1⟩

theorem sample_tx : sampleTx.InRange := by
  refine ⟨⟨by decide, by decide, by decide, by decide⟩, by decide, ?_, ?_, by decide, by decide⟩
  · intro i hi
    rw [List.mem_singleton.1 hi]; exact sample_input
  · intro o ho
    have : o = sampleOutput := by simpa [sampleTx] using ho
    rw [this]; exact sample_output

/-! ## C34 round trip -/

/-- The script makes the classifier raise AttributeError when it is parsed. -/
def Script.Trips (s : Script) : Prop := Crashes (shape s.wires)

/-- Some script of the transaction makes the classifier raise. -/
def Transaction.Trips (t : Transaction) : Prop := (∃ i ∈ t.inputs, i.script.Trips) ∨ ∃ o ∈ t.outputs, o.script.Trips

/-- C34. An in-range transaction without PUSHDATA serialises to the Bitcoin wire format of the transaction it stands
for. -/
theorem C34_format (t : Transaction) (h : t.InRange) (hp : ¬ t.HasPushData) :
    ∃ w : WireTx, t.Shows w ∧ w.Fits ∧ t.toBytes = .ok w.bytes ∧ t.toHex = .ok (hexText w.bytes) := by
  obtain ⟨w, hs, hw⟩ := tx_shows t h
  refine ⟨w, hs, hw, ?_, ?_⟩
  · rw [tx_toBytes t w hs, if_neg hp]
  · rw [Transaction.toHex, tx_toBytes t w hs, if_neg hp, hexText_eq]; rfl

theorem trips_iff {t : Transaction} {w : WireTx} (h : t.Shows w) :
    t.Trips ↔ (∃ i ∈ w.inputs, CrashesOn i.script) ∨ ∃ o ∈ w.outputs, CrashesOn o.script := by
  have key : ∀ {α β : Type} {R : α → β → Prop} {p : α → Prop} {q : β → Prop}, (∀ x y, R x y → (p x ↔ q y)) →
      ∀ {xs ys}, List.Forall₂ R xs ys → ((∃ x ∈ xs, p x) ↔ ∃ y ∈ ys, q y) := by
    intro α β R p q hpq xs ys h
    induction h with
    | nil => simp
    | cons a _ ih => simp [ih, hpq _ _ a]
  unfold Transaction.Trips
  rw [key (p := fun i : Input => i.script.Trips) (q := fun i : WireIn => CrashesOn i.script)
      (fun i w h => (crashesOn_iff h.2.2.1).symm) h.2.1,
    key (p := fun i : Output => i.script.Trips) (q := fun i : WireOut => CrashesOn i.script)
      (fun i w h => (crashesOn_iff h.2).symm) h.2.2.1]

/-- C34, part that holds: an in-range transaction without PUSHDATA serialises, and parsing the bytes, whatever
follows them, gives an equal transaction of plain Inputs, unless the script classifier trips over a script (then
AttributeError).  Missing: PUSHDATA and the scripts that trip the classifier (see the refutations). -/
theorem C34_roundtrip_partial (t : Transaction) (h : t.InRange) (hp : ¬ t.HasPushData) :
    ∃ b, t.toBytes = .ok b ∧ ∀ rest,
      ((¬ t.Trips ∧ ∃ u, Transaction.fromBuffer (b ++ rest) = (.ok u, rest) ∧ u.eq t = true ∧
          Transaction.fromBytes (b ++ rest) = .ok u ∧ ∀ i ∈ u.inputs, i.cls = .generic) ∨
        (t.Trips ∧ Transaction.fromBytes (b ++ rest) = .error .attributeError)) := by
  obtain ⟨w, hs, hw⟩ := tx_shows t h
  obtain ⟨⟨hi, ho, _⟩, _⟩ := h
  refine ⟨w.bytes, by rw [tx_toBytes t w hs, if_neg hp], fun rest => ?_⟩
  have hi' : w.inputs ≠ [] := by
    intro e; have := hs.2.1.length_eq; rw [e] at this; exact hi (List.length_eq_zero_iff.1 this)
  have ho' : w.outputs ≠ [] := by
    intro e; have := hs.2.2.1.length_eq; rw [e] at this; exact ho (List.length_eq_zero_iff.1 this)
  have hsi : ∀ i ∈ w.inputs, ∃ ws, Encodes ws i.script := by
    intro i him
    obtain ⟨x, _, hx⟩ := forall₂_mem_left (hs.2.1.flip : List.Forall₂ (fun w i => Input.Shows i w) _ _) him
    exact ⟨_, hx.2.2.1⟩
  have hso : ∀ i ∈ w.outputs, ∃ ws, Encodes ws i.script := by
    intro i him
    obtain ⟨x, _, hx⟩ := forall₂_mem_left (hs.2.2.1.flip : List.Forall₂ (fun w i => Output.Shows i w) _ _) him
    exact ⟨_, hx.2⟩
  rw [trips_iff hs]
  rcases tx_fromBuffer w hw hi' ho' hsi hso rest with ⟨⟨c1, c2⟩, u, hu, hus, hg⟩ | ⟨hc, he⟩
  · left
    refine ⟨?_, u, hu, tx_shows_eq hus hs, by rw [Transaction.fromBytes, hu], hg⟩
    rintro (⟨i, h1, h2⟩ | ⟨i, h1, h2⟩)
    · exact c1 i h1 h2
    · exact c2 i h1 h2
  · exact .inr ⟨hc, he⟩

/-- C34, part that holds, for an Input within a longer buffer, read as any of the input classes. -/
theorem C34_input_partial (i : Input) (h : i.InRange) (hp : ¬ i.script.HasPushData) (c : InputClass) :
    ∃ b, i.toBytes = .ok b ∧ i.toHex = .ok (hexText b) ∧ ∀ rest,
      ((¬ i.script.Trips ∧ ∃ j, Input.fromBuffer c (b ++ rest) = (.ok j, rest) ∧ j.eq i = true ∧ j.cls = c) ∨
        (i.script.Trips ∧ (Input.fromBuffer c (b ++ rest)).1 = .error .attributeError)) := by
  obtain ⟨w, hs, hw⟩ := input_shows i h
  have hb : i.toBytes = .ok w.bytes := by rw [input_toBytes i w hs, if_neg hp]
  refine ⟨w.bytes, hb, by rw [Input.toHex, hb, hexText_eq]; rfl, fun rest => ?_⟩
  rcases input_fromBuffer c w hw _ hs.2.2.1 rest with ⟨hc, j, hj, hjs, hcl, _⟩ | ⟨hc, he⟩
  · exact .inl ⟨hc, j, hj, input_shows_eq hjs hs, hcl⟩
  · exact .inr ⟨hc, he⟩

/-- C34, part that holds, for an Output within a longer buffer. -/
theorem C34_output_partial (o : Output) (h : o.InRange) (hp : ¬ o.script.HasPushData) :
    ∃ b, o.toBytes = .ok b ∧ o.toHex = .ok (hexText b) ∧ ∀ rest,
      ((¬ o.script.Trips ∧ ∃ q, Output.fromBuffer (b ++ rest) = (.ok q, rest) ∧ q.eq o = true) ∨
        (o.script.Trips ∧ (Output.fromBuffer (b ++ rest)).1 = .error .attributeError)) := by
  obtain ⟨w, hs, hw⟩ := output_shows o h
  have hb : o.toBytes = .ok w.bytes := by rw [output_toBytes o w hs, if_neg hp]
  refine ⟨w.bytes, hb, by rw [Output.toHex, hb, hexText_eq]; rfl, fun rest => ?_⟩
  rcases output_fromBuffer w hw _ hs.2 rest with ⟨hc, j, hj, hjs, _⟩ | ⟨hc, he⟩
  · exact .inl ⟨hc, j, hj, output_shows_eq hjs hs⟩
  · exact .inr ⟨hc, he⟩

/-- C34. The hexadecimal round trip reduces to that of bytes, for all three. -/
theorem C34_hex (b : Bytes) (c : InputClass) : Transaction.fromHex (hexText b) = Transaction.fromBytes b ∧
    Input.fromHex (hexText b) c = (Input.fromBuffer c b).1 ∧ Output.fromHex (hexText b) = (Output.fromBuffer b).1 := by
  rw [hexText_eq]
  refine ⟨?_, ?_, ?_⟩
  · rw [Transaction.fromHex, decodeHex_encodeHex]
  · rw [Input.fromHex, decodeHex_encodeHex]; rfl
  · rw [Output.fromHex, decodeHex_encodeHex]; rfl

/-- C34 is false of the code: no in-range transaction with a PUSHDATA instruction can be serialised. -/
theorem C34_pushdata_refuted (t : Transaction) (h : t.InRange) (hp : t.HasPushData) : t.toBytes = .error .typeError := by
  obtain ⟨w, hs, _⟩ := tx_shows t h
  rw [tx_toBytes t w hs, if_pos hp]

/-- An output with a script of four pushes. -/
def fourPushOutput : Output := ⟨.generic, 1, ⟨.generic, List.replicate 4 ⟨.num 1, some ⟨.str, [7]⟩⟩⟩⟩

/-- C34 is false of the code: a transaction with a script of four pushes serialises but cannot be parsed. -/
theorem C34_parse_refuted : ∃ (t : Transaction) (b : Bytes), t.InRange ∧ t.toBytes = .ok b ∧
    Transaction.fromBytes b = .error .attributeError := by
  have w : Wf ((1, some [7]) : WireInstr) := by decide
  have e : IsWire ((1, some [7]) : WireInstr) [1, 7] := by
    simp only [IsWire, show pushKind 1 = .direct 1 by decide]
  have ho : fourPushOutput.InRange :=
    ⟨by decide, [1, 7, 1, 7, 1, 7, 1, 7], .cons w e (.cons w e (.cons w e (.cons w e .nil))), by decide⟩
  have ht : (⟨[sampleInput], [fourPushOutput], 0, 1⟩ : Transaction).InRange := by
    refine ⟨⟨by decide, by decide, by decide, by decide⟩, by decide, ?_, ?_, by decide, by decide⟩
    · intro i hi
      rw [List.mem_singleton.1 hi]; exact sample_input
    · intro o ho'
      rw [List.mem_singleton.1 ho']; exact ho
  obtain ⟨b, hb, hr⟩ := C34_roundtrip_partial _ ht (by decide)
  refine ⟨_, b, ht, hb, ?_⟩
  rcases hr [] with ⟨hn, _⟩ | ⟨_, he⟩
  · exfalso
    refine hn (.inr ⟨fourPushOutput, by simp, ?_⟩)
    refine ⟨by decide, ?_, by decide⟩
    rintro ⟨k, _, h⟩
    rw [show shape fourPushOutput.script.wires = [none, none, none, none] by decide] at h
    cases h
  · simpa using he

example : sampleTx.InRange ∧ ¬ sampleTx.HasPushData ∧
    sampleTx.toBytes = .ok ([1, 0, 0, 0, 1] ++ List.replicate 32 170 ++ [1, 0, 0, 0, 1, 81, 255, 255, 255, 255, 2,
      136, 19, 0, 0, 0, 0, 0, 0, 3, 2, 7, 8, 136, 19, 0, 0, 0, 0, 0, 0, 3, 2, 7, 8, 7, 0, 0, 0]) :=
  ⟨sample_tx, by decide, by decide +kernel⟩

/-! ## C35 injectivity -/

/-- C35. In-range transactions that serialise to the same bytes are equal. -/
theorem C35_injective (t u : Transaction) (ht : t.InRange) (hu : u.InRange) (b : Bytes) (h : t.toBytes = .ok b)
    (h' : u.toBytes = .ok b) : t.eq u = true := by
  obtain ⟨w, hs, hw⟩ := tx_shows t ht
  obtain ⟨w', hs', hw'⟩ := tx_shows u hu
  rw [tx_toBytes t w hs] at h
  rw [tx_toBytes u w' hs'] at h'
  split at h <;> cases h
  split at h' <;> simp only [Except.ok.injEq, reduceCtorEq] at h'
  obtain ⟨rfl, _⟩ := wireTx_append_inj (a := []) (b := []) (by simpa using h'.symm) hw hw'
  exact tx_shows_eq hs hs'

/-- C35. No serialisation is a proper prefix of another, so the payload that is signed (the serialisation followed by
the signature type) also determines the transaction. -/
theorem C35_prefix_free (t u : Transaction) (ht : t.InRange) (hu : u.InRange) (b b' c c' : Bytes)
    (h : t.toBytes = .ok b) (h' : u.toBytes = .ok b') (he : b ++ c = b' ++ c') : t.eq u = true ∧ b = b' ∧ c = c' := by
  obtain ⟨w, hs, hw⟩ := tx_shows t ht
  obtain ⟨w', hs', hw'⟩ := tx_shows u hu
  rw [tx_toBytes t w hs] at h
  rw [tx_toBytes u w' hs'] at h'
  split at h <;> cases h
  split at h' <;> cases h'
  obtain ⟨rfl, hc⟩ := wireTx_append_inj he hw hw'
  exact ⟨tx_shows_eq hs hs', rfl, hc⟩

/-- C35. Equal in-range transactions serialise alike: the bytes depend only on what `==` compares. -/
theorem C35_congr (t u : Transaction) (ht : t.InRange) (hu : u.InRange) (h : t.eq u = true) : t.toBytes = u.toBytes := by
  obtain ⟨w, hs, hw⟩ := tx_shows t ht
  have hsu : u.Shows w := by
    obtain ⟨h1, h2, h3, h4⟩ := hs
    rw [tx_eq_iff] at h
    obtain ⟨g1, g2, g3, g4⟩ := h
    refine ⟨g4 ▸ h1, ?_, ?_, g3 ▸ h4⟩
    · exact forall₂_transfer (fun i j w hij hiw => by
        obtain ⟨a, b, c, d⟩ := (input_eq_iff i j).1 hij
        obtain ⟨a', b', c', d'⟩ := hiw
        exact ⟨a ▸ a', b ▸ b', c ▸ c', d ▸ d'⟩) g1 h2
    · exact forall₂_transfer (fun i j w hij hiw => by
        obtain ⟨a, b⟩ := (output_eq_iff i j).1 hij
        obtain ⟨a', b'⟩ := hiw
        exact ⟨a ▸ a', b ▸ b'⟩) g2 h3
  rw [tx_toBytes t w hs, tx_toBytes u w hsu]
  have e : t.HasPushData ↔ u.HasPushData := by
    rw [tx_eq_iff] at h
    have key : ∀ {α : Type} {S : α → α → Prop} {p : α → Prop}, (∀ x y, S x y → (p x ↔ p y)) →
        ∀ {xs ys}, List.Forall₂ S xs ys → ((∃ x ∈ xs, p x) ↔ ∃ y ∈ ys, p y) := by
      intro α S p hpq xs ys h
      induction h with
      | nil => simp
      | cons a _ ih => simp [ih, hpq _ _ a]
    unfold Transaction.HasPushData
    rw [key (p := fun i : Input => i.script.HasPushData) (fun i j hij => by
        simp only [Script.HasPushData, ((input_eq_iff i j).1 hij).2.2.1]) h.1,
      key (p := fun i : Output => i.script.HasPushData) (fun i j hij => by
        simp only [Script.HasPushData, ((output_eq_iff i j).1 hij).2]) h.2.1]
  by_cases hp : t.HasPushData
  · rw [if_pos hp, if_pos (e.1 hp)]
  · rw [if_neg hp, if_neg fun x => hp (e.2 x)]

example : sampleTx.InRange ∧ ({ sampleTx with version := 2 } : Transaction).toBytes ≠ sampleTx.toBytes :=
  ⟨sample_tx, by decide +kernel⟩

/-! ## C36 parsing -/

/-- C36, part that holds: what is parsed is in range (so C34, C35 apply to it), is made of plain Inputs, and its own
serialisation, when it exists, is at most as long as the string, and is the string if as long.  Missing: shorter
serialisations (see the refutations) and PUSHDATA. -/
theorem C36_reserialise_partial (b : Bytes) (t : Transaction) (h : Transaction.fromBytes b = .ok t) :
    t.InRange ∧ (∃ w : WireTx, t.Shows w ∧ w.Fits ∧ w.bytes.length ≤ b.length ∧ (w.bytes.length = b.length → w.bytes = b)) ∧
    (t.HasPushData → t.toBytes = .error .typeError) ∧
    (¬ t.HasPushData → ∃ b', t.toBytes = .ok b' ∧ b'.length ≤ b.length ∧ (b'.length = b.length → b' = b)) ∧
    ∀ i ∈ t.inputs, i.cls = .generic := by
  have hl : t.Legal := C33_invariant t (.inr (.inl ⟨b, h⟩))
  unfold Transaction.fromBytes at h
  rcases hr : Transaction.fromBuffer b with ⟨r, s⟩
  rw [hr] at h
  simp only at h
  subst h
  obtain ⟨w, pre, rfl, hs, hw, ⟨h1, h2⟩, hg⟩ := tx_fromBuffer_ok hr
  have a1 : w.bytes.length ≤ (pre ++ s).length := by rw [List.length_append]; omega
  have a2 : w.bytes.length = (pre ++ s).length → w.bytes = pre ++ s := by
    intro e
    rw [List.length_append] at e
    have : s = [] := List.length_eq_zero_iff.1 (by omega)
    subst this
    rw [List.append_nil]
    exact h2 (by simpa using e)
  refine ⟨shows_inRange t w hl hs hw, ⟨w, hs, hw, a1, a2⟩, fun hp => ?_, fun hp => ?_, hg⟩
  · rw [tx_toBytes t w hs, if_pos hp]
  · exact ⟨w.bytes, by rw [tx_toBytes t w hs, if_neg hp], a1, a2⟩

/-- C36 is false of the code: trailing bytes never matter. -/
theorem C36_trailing_refuted (b : Bytes) (t : Transaction) (h : Transaction.fromBytes b = .ok t) (rest : Bytes) :
    Transaction.fromBytes (b ++ rest) = .ok t := by
  unfold Transaction.fromBytes at h ⊢
  rcases hr : Transaction.fromBuffer b with ⟨r, s⟩
  rw [hr] at h
  simp only at h
  subst h
  rw [stable_tx _ _ _ hr rest]

/-- A serialisation of `sampleTx` with the number of inputs written on three bytes. -/
def nonCanonical : Bytes := [1, 0, 0, 0, 253, 1, 0] ++ List.replicate 32 170 ++ [1, 0, 0, 0, 1, 81, 255, 255, 255, 255, 2,
      136, 19, 0, 0, 0, 0, 0, 0, 3, 2, 7, 8, 136, 19, 0, 0, 0, 0, 0, 0, 3, 2, 7, 8, 7, 0, 0, 0]

/-- C36 is false of the code: a non-canonical count is accepted, and the serialisation differs. -/
theorem C36_varint_refuted : ∃ (b b' : Bytes) (t : Transaction), Transaction.fromBytes b = .ok t ∧ t.toBytes = .ok b' ∧
    b ≠ b' ∧ (Transaction.fromBuffer b).2 = [] := by
  have e : (Transaction.fromBytes nonCanonical).map (fun t => (t.toBytes, decide ((Transaction.fromBuffer nonCanonical).2 = []))) =
      .ok (sampleTx.toBytes, true) := by decide +kernel
  have hb : ∃ b', sampleTx.toBytes = .ok b' ∧ nonCanonical ≠ b' := ⟨[1, 0, 0, 0, 1] ++ List.replicate 32 170 ++ [1, 0, 0, 0, 1, 81, 255, 255, 255, 255, 2,
      136, 19, 0, 0, 0, 0, 0, 0, 3, 2, 7, 8, 136, 19, 0, 0, 0, 0, 0, 0, 3, 2, 7, 8, 7, 0, 0, 0], by decide +kernel, by decide⟩
  obtain ⟨b', hb, hne⟩ := hb
  cases ht : Transaction.fromBytes nonCanonical with
  | error e' => rw [ht] at e; cases e
  | ok t =>
    rw [ht] at e
    simp only [Except.map, Except.ok.injEq, Prod.mk.injEq, decide_eq_true_eq] at e
    exact ⟨nonCanonical, b', t, ht, e.1.trans hb, hne, e.2⟩

/-- C36. Every way parsing can fail. -/
theorem C36_outcomes (b : Bytes) : (∃ t, Transaction.fromBytes b = .ok t) ∨ ∃ e, Transaction.fromBytes b = .error e ∧
    ((∃ r q, e = .insufficientData r q) ∨ e = .attributeError ∨ e = .overflowError ∨ e = .txNoInputs ∨ e = .txNoOutputs) := by
  unfold Transaction.fromBytes
  rcases hr : Transaction.fromBuffer b with ⟨r, s⟩
  cases r with
  | ok t => exact .inl ⟨t, rfl⟩
  | error e =>
    exact .inr ⟨e, rfl, fails_tx (P := fun e => (∃ r q, e = .insufficientData r q) ∨ e = .attributeError ∨ e = .overflowError ∨ e = .txNoInputs ∨ e = .txNoOutputs) (fun r q => .inl ⟨r, q, rfl⟩) (.inr (.inl rfl)) (.inr (.inr (.inl rfl)))
      (.inr (.inr (.inr (.inl rfl)))) (.inr (.inr (.inr (.inr rfl)))) _ _ _ hr⟩

/-! ## C44 transaction ids -/

/-- C44, part that holds: the id is the hexadecimal form of the double SHA-256 of the serialisation, and an Input with
that id serialises with the *reverse* of the double SHA-256 as its outpoint hash.  Missing: the reversal (see the
refutation); it is right exactly when the digest is a palindrome. -/
theorem C44_outpoint_partial (H : Hashes) (t : Transaction) (id : Text) (ht : t.getId H = .ok id) (i : Input)
    (hi : i.txId = id) (b : Bytes) (hb : i.toBytes = .ok b) :
    ∃ d, t.toBytes = .ok d ∧ id = hexText (H.sha256 (H.sha256 d)) ∧ b.take 32 = (H.sha256 (H.sha256 d)).reverse ∧
      (b.take 32 = H.sha256 (H.sha256 d) ↔ (H.sha256 (H.sha256 d)).reverse = H.sha256 (H.sha256 d)) := by
  unfold Transaction.getId Transaction.getIdBytes at ht
  cases hd : t.toBytes with
  | error e => rw [hd] at ht; cases ht
  | ok d =>
    rw [hd] at ht
    simp only [Except.map, Except.ok.injEq] at ht
    refine ⟨d, rfl, by rw [hexText_eq]; exact ht.symm, ?_⟩
    have key : b.take 32 = (H.sha256 (H.sha256 d)).reverse := by
      unfold Input.toBytes at hb
      split at hb
      · cases hb
      · rw [hi, ← ht, decodeHex_encodeHex] at hb
        simp only [Except.ok.injEq] at hb
        rw [← hb]
        simp only [Buffer.write, List.nil_append, List.append_assoc]
        rw [List.take_append_of_le_length (by rw [List.length_reverse, H.sha256_length]),
          List.take_of_length_le (by rw [List.length_reverse, H.sha256_length])]
    exact ⟨key, by rw [key]⟩

/-- C44 is false of the code: the outpoint hash is not the double SHA-256. -/
theorem C44_reversed_refuted : ∃ (t : Transaction) (id : Text) (i : Input) (b d : Bytes), t.InRange ∧
    t.getId .real = .ok id ∧ i.txId = id ∧ i.InRange ∧ i.toBytes = .ok b ∧ t.toBytes = .ok d ∧
    b.take 32 ≠ Hashes.real.sha256 (Hashes.real.sha256 d) := by
  obtain ⟨d, hd, _⟩ := C34_roundtrip_partial sampleTx sample_tx (by decide)
  have hid : sampleTx.getId .real = .ok (hexText (Hashes.real.sha256 (Hashes.real.sha256 d))) := by
    unfold Transaction.getId Transaction.getIdBytes
    rw [hd, hexText_eq]; rfl
  have hi : ({ sampleInput with txId := hexText (Hashes.real.sha256 (Hashes.real.sha256 d)) } : Input).InRange :=
    ⟨(txIdOk_iff _).2 ⟨(Hashes.real.sha256 (Hashes.real.sha256 d)).reverse,
      by rw [List.length_reverse, Hashes.sha256_length], by rw [List.reverse_reverse]⟩, sample_input.2⟩
  obtain ⟨b, hb, _⟩ := C34_input_partial _ hi (show ¬ sampleInput.script.HasPushData by decide) .generic
  refine ⟨sampleTx, _, _, b, d, sample_tx, hid, rfl, hi, hb, hd, ?_⟩
  obtain ⟨d', hd', _, _, h⟩ := C44_outpoint_partial .real sampleTx _ hid _ rfl b hb
  rw [hd] at hd'
  cases hd'
  rw [ne_eq, h]
  have e : sampleTx.toBytes = .ok ([1, 0, 0, 0, 1] ++ List.replicate 32 170 ++ [1, 0, 0, 0, 1, 81, 255, 255, 255, 255, 2,
      136, 19, 0, 0, 0, 0, 0, 0, 3, 2, 7, 8, 136, 19, 0, 0, 0, 0, 0, 0, 3, 2, 7, 8, 7, 0, 0, 0]) := by decide +kernel
  rw [hd] at e
  cases e
  decide +kernel

end Bitforge
