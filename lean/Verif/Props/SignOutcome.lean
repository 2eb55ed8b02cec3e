import Verif.Props.Writers
import Verif.Props.Sign

/-! # C120: what signing does in every case -/

namespace Bitforge
open Spec

/-! ## The outcomes -/

/-- A signature as it is put into a script: what the signer returned and a byte for the type.  The signer is asked first. -/
inductive SigMade (S : Signer) (p : Bytes) (st : Int) (n : Nat) (k : PrivateKey) : Except Err Bytes → Prop
  | signer {e} : S n k p = .error e → SigMade S p st n k (.error e)
  | type {s} : S n k p = .ok s → st < 0 ∨ 255 < st → SigMade S p st n k (.error .valueError)
  | bytes {s} {c : Byte} : S n k p = .ok s → (c.val : Int) = st → SigMade S p st n k (.ok (s ++ [c]))

/-- The elements one after the other; the first that fails decides the error. -/
inductive EachMade {α β : Type} (R : α → Except Err β → Prop) : List α → Except Err (List β) → Prop
  | nil : EachMade R [] (.ok [])
  | here {x xs e} : R x (.error e) → EachMade R (x :: xs) (.error e)
  | later {x xs y e} : R x (.ok y) → EachMade R xs (.error e) → EachMade R (x :: xs) (.error e)
  | next {x xs y ys} : R x (.ok y) → EachMade R xs (.ok ys) → EachMade R (x :: xs) (.ok (y :: ys))

/-- The instruction that pushes data: nothing, and 4 GiB or more, cannot be pushed. -/
inductive PushMade (d : Bytes) : Except Err Instruction → Prop
  | empty : d = [] → PushMade d (.error .opInvalidConstPushLength)
  | long : 2 ^ 32 ≤ d.length → PushMade d (.error .opInvalidPushLength)
  | push {op : Byte} : 1 ≤ d.length →
      d.length ≤ 75 ∧ op.val = d.length ∨ 75 < d.length ∧ d.length < 2 ^ 8 ∧ op = 76 ∨
        2 ^ 8 ≤ d.length ∧ d.length < 2 ^ 16 ∧ op = 77 ∨ 2 ^ 16 ≤ d.length ∧ d.length < 2 ^ 32 ∧ op = 78 →
      PushMade d (.ok ⟨⟨op⟩, some ⟨.str, d⟩⟩)

/-- The bytes of the public key of a private key. -/
def OwnKey (k : PrivateKey) (b : Bytes) : Prop :=
  ∃ x y, reduced x ∧ reduced y ∧ IsPoint x y (k.secret.toNat • G) ∧ Sec x.toNat y.toNat k.compressed b

/-- The input with another script; it is an Input of no subclass. -/
def scripted (x : Input) (c : ScriptClass) (is : List Instruction) : Input := ⟨.generic, x.txId, x.txoIndex, ⟨c, is⟩, x.seqNumber⟩

/-- What `sign` of an input does with the keys and the digest. -/
inductive InputSigned (S : Signer) (x : Input) (ks : List PrivateKey) (p : Bytes) (st : Int) : Except Err Input → Prop
  | plain : x.cls = .generic → InputSigned S x ks p st (.error .inUnknownSignatureMethod)
  | count : x.cls = .address → ks.length ≠ 1 → InputSigned S x ks p st (.error .inInvalidSignatureCount)
  | signature {k e} : x.cls = .address → ks = [k] → SigMade S p st 0 k (.error e) → InputSigned S x ks p st (.error e)
  | push {k d e} : x.cls = .address → ks = [k] → SigMade S p st 0 k (.ok d) → PushMade d (.error e) →
      InputSigned S x ks p st (.error e)
  | address {k d b i j} : x.cls = .address → ks = [k] → SigMade S p st 0 k (.ok d) → OwnKey k b → PushMade d (.ok i) →
      PushMade b (.ok j) → InputSigned S x ks p st (.ok (scripted x .payToPubkeyIn [i, j]))
  | signatures {e} : x.cls = .script ∨ x.cls = .multisig →
      EachMade (fun kn r => SigMade S p st kn.2 kn.1 r) ks.zipIdx (.error e) → InputSigned S x ks p st (.error e)
  | redeem {ds e} : x.cls = .script ∨ x.cls = .multisig →
      EachMade (fun kn r => SigMade S p st kn.2 kn.1 r) ks.zipIdx (.ok ds) → ScriptWritten x.script (.error e) →
      InputSigned S x ks p st (.error e)
  | pushes {ds b e} : x.cls = .script ∨ x.cls = .multisig →
      EachMade (fun kn r => SigMade S p st kn.2 kn.1 r) ks.zipIdx (.ok ds) → ScriptWritten x.script (.ok b) →
      EachMade PushMade (ds ++ [b]) (.error e) → InputSigned S x ks p st (.error e)
  | script {ds b is} : x.cls = .script ∨ x.cls = .multisig →
      EachMade (fun kn r => SigMade S p st kn.2 kn.1 r) ks.zipIdx (.ok ds) → ScriptWritten x.script (.ok b) →
      EachMade PushMade (ds ++ [b]) (.ok is) →
      InputSigned S x ks p st (.ok (scripted x .payToScriptIn (⟨⟨0⟩, none⟩ :: is)))

/-- The transaction with the scripts of all inputs but one emptied. -/
def emptied (t : Transaction) (i : Int) : Transaction :=
  { t with inputs := t.inputs.mapIdx fun n x => if (n : Int) = i then x else scripted x .generic [] }

/-- The transaction with one input replaced; a negative number names none. -/
def withInput (t : Transaction) (i : Int) (y : Input) : Transaction :=
  { t with inputs := t.inputs.mapIdx fun n x => if (n : Int) = i then y else x }

/-- What the constructor refuses, in the order of its checks; fields of another kind than objects have had their constructor
check them. -/
inductive Unmakeable (t : Transaction) : Err → Prop
  | inputs : t.inputs = [] → Unmakeable t .txNoInputs
  | outputs : t.inputs ≠ [] → t.outputs = [] → Unmakeable t .txNoOutputs
  | lockTime : t.inputs ≠ [] → t.outputs ≠ [] → t.lockTime < 0 ∨ 2 ^ 32 ≤ t.lockTime → Unmakeable t .txInvalidLockTime

/-- What `sign` of a transaction does. -/
inductive TransactionSigned (H : Hashes) (S : Signer) (t : Transaction) (ks : List PrivateKey) (i st : Int) :
    Except Err Transaction → Prop
  | unmakeable {e} : Unmakeable t e → TransactionSigned H S t ks i st (.error e)
  | payload {e} : (∀ e, ¬ Unmakeable t e) → TransactionWritten (emptied t i) (.error e) → TransactionSigned H S t ks i st (.error e)
  | index {b} : (∀ e, ¬ Unmakeable t e) → TransactionWritten (emptied t i) (.ok b) → i < -t.inputs.length ∨ t.inputs.length ≤ i →
      TransactionSigned H S t ks i st (.error .indexError)
  | input {b x e} : (∀ e, ¬ Unmakeable t e) → TransactionWritten (emptied t i) (.ok b) → -t.inputs.length ≤ i →
      t.inputs[(if i < 0 then i + t.inputs.length else i).toNat]? = some x →
      InputSigned S x ks (H.sha256 (H.sha256 (b ++ le 4 st.toNat))) st (.error e) → TransactionSigned H S t ks i st (.error e)
  | signed {b x y} : (∀ e, ¬ Unmakeable t e) → TransactionWritten (emptied t i) (.ok b) → -t.inputs.length ≤ i →
      t.inputs[(if i < 0 then i + t.inputs.length else i).toNat]? = some x →
      InputSigned S x ks (H.sha256 (H.sha256 (b ++ le 4 st.toNat))) st (.ok y) →
      TransactionSigned H S t ks i st (.ok (withInput t i y))

/-! ## The parts -/

theorem sig_made (S : Signer) (p : Bytes) (st : Int) (n : Nat) (k : PrivateKey) (r : Except Err Bytes) :
    (Input.signature S n k p st).map Data.val = r ↔ SigMade S p st n k r := by
  refine graph (f := fun (_ : Unit) => (Input.signature S n k p st).map Data.val) (R := fun _ r => SigMade S p st n k r) ?_ ?_ () r
  · intro _ r h
    unfold Input.signature
    cases h with
    | signer h => simp only [h, Except.map]
    | type h h' =>
      simp only [h]
      unfold chrByte
      rw [if_neg (by omega)]
      rfl
    | @bytes s c h h' =>
      simp only [h]
      unfold chrByte
      have := c.isLt
      have e : byte st.toNat = c := Fin.ext (by rw [byte_val]; omega)
      rw [if_pos (by omega), e]
      rfl
  · intro _
    cases hs : S n k p with
    | error e => exact ⟨_, .signer hs⟩
    | ok s =>
      by_cases h : st < 0 ∨ 255 < st
      · exact ⟨_, .type hs h⟩
      · exact ⟨_, .bytes (c := ⟨st.toNat, by omega⟩) hs (by simp only []; omega)⟩

theorem sig_str {S : Signer} {n : Nat} {k : PrivateKey} {p : Bytes} {st : Int} {d : Data}
    (h : Input.signature S n k p st = .ok d) : d.kind = .str := by
  obtain ⟨s, c, -, -, -, -, rfl⟩ := signature_ok h
  rfl

/-- The outcome of a signature and the `str` it is. -/
theorem sig_graph (S : Signer) (p : Bytes) (st : Int) (n : Nat) (k : PrivateKey) :
    (∃ e, Input.signature S n k p st = .error e ∧ SigMade S p st n k (.error e)) ∨
      ∃ d, Input.signature S n k p st = .ok ⟨.str, d⟩ ∧ SigMade S p st n k (.ok d) := by
  have h := (sig_made S p st n k _).1 rfl
  cases hs : Input.signature S n k p st with
  | error e => rw [hs] at h; exact .inl ⟨e, rfl, h⟩
  | ok d =>
    rw [hs] at h
    have hk := sig_str hs
    obtain ⟨kind, v⟩ := d
    cases hk
    exact .inr ⟨v, rfl, h⟩

theorem sigMade_unique {S : Signer} {p : Bytes} {st : Int} {n : Nat} {k : PrivateKey} {r r' : Except Err Bytes}
    (h : SigMade S p st n k r) (h' : SigMade S p st n k r') : r = r' :=
  ((sig_made S p st n k r).2 h).symm.trans ((sig_made S p st n k r').2 h')

theorem each_unique {α β : Type} {R : α → Except Err β → Prop} (hR : ∀ x r r', R x r → R x r' → r = r') {xs : List α}
    {r r' : Except Err (List β)} (h : EachMade R xs r) (h' : EachMade R xs r') : r = r' := by
  induction h generalizing r' with
  | nil => cases h'; rfl
  | here h =>
    cases h' with
    | here g => cases hR _ _ _ h g; rfl
    | later g _ => cases hR _ _ _ h g
    | next g _ => cases hR _ _ _ h g
  | later h _ ih =>
    cases h' with
    | here g => cases hR _ _ _ h g
    | later _ g => cases ih g; rfl
    | next _ g => cases ih g
  | next h _ ih =>
    cases h' with
    | here g => cases hR _ _ _ h g
    | later _ g => cases ih g
    | next g g' => cases hR _ _ _ h g; cases ih g'; rfl

theorem sigs_graph (S : Signer) (p : Bytes) (st : Int) (ks : List PrivateKey) (n : Nat) :
    (∃ e, Input.signatures S p st n ks = .error e ∧ EachMade (fun kn r => SigMade S p st kn.2 kn.1 r) (ks.zipIdx n) (.error e)) ∨
      ∃ ds : List Bytes, Input.signatures S p st n ks = .ok (ds.map (⟨.str, ·⟩)) ∧
        EachMade (fun kn r => SigMade S p st kn.2 kn.1 r) (ks.zipIdx n) (.ok ds) := by
  induction ks generalizing n with
  | nil => exact .inr ⟨[], rfl, .nil⟩
  | cons k ks ih =>
    rw [List.zipIdx_cons]
    unfold Input.signatures
    rcases sig_graph S p st n k with ⟨e, h1, h2⟩ | ⟨d, h1, h2⟩
    · exact .inl ⟨e, by rw [h1], .here h2⟩
    · rw [h1]
      rcases ih (n + 1) with ⟨e, h3, h4⟩ | ⟨ds, h3, h4⟩
      · exact .inl ⟨e, by rw [h3], .later h2 h4⟩
      · exact .inr ⟨d :: ds, by rw [h3]; rfl, .next h2 h4⟩

theorem push_made (d : Bytes) (r : Except Err Instruction) : (SchemItem.bytes ⟨.str, d⟩).instruction = r ↔ PushMade d r := by
  refine graph (f := fun d => (SchemItem.bytes ⟨.str, d⟩).instruction) (R := fun d r => PushMade d r) ?_ ?_ d r
  · intro d r h
    simp only [SchemItem.instruction, bind, Except.bind]
    cases h with
    | empty h => subst h; rfl
    | long h => rw [(C26_rejects _).2 (by exact_mod_cast h)]
    | @push op h h' =>
      have key : Opcode.pushFor (d.length : Int) = .ok ⟨op⟩ := by
        have := C26_table d.length
        rcases h' with h' | h' | h' | h'
        · obtain ⟨o, h1, h2⟩ := this.1 ⟨h, h'.1⟩
          rw [h1, show o = ⟨op⟩ by cases o; congr 1; exact Fin.ext (h2.trans h'.2.symm)]
        · obtain ⟨o, h1, h2⟩ := this.2.1 ⟨h'.1, h'.2.1⟩
          rw [h1, show o = ⟨op⟩ by cases o; congr 1; exact h2.trans h'.2.2.symm]
        · obtain ⟨o, h1, h2⟩ := this.2.2.1 ⟨h'.1, h'.2.1⟩
          rw [h1, show o = ⟨op⟩ by cases o; congr 1; exact h2.trans h'.2.2.symm]
        · obtain ⟨o, h1, h2⟩ := this.2.2.2 ⟨h'.1, h'.2.1⟩
          rw [h1, show o = ⟨op⟩ by cases o; congr 1; exact h2.trans h'.2.2.symm]
      rw [key]
      simp only []
      have hop : op.val = 76 → op = 76 := fun h => Fin.ext h
      have hc : (Opcode.mk op).isConstPush = true ↔ 1 ≤ op.val ∧ op.val ≤ 75 := by unfold Opcode.isConstPush; simp
      have hv := varPush_iff op
      unfold Instruction.make
      rcases h' with ⟨h1, h2⟩ | ⟨h1, h2, rfl⟩ | ⟨h1, h2, rfl⟩ | ⟨h1, h2, rfl⟩
      · have hcc : (Opcode.mk op).isConstPush = true := hc.2 ⟨by omega, by omega⟩
        have hcv : ¬ (Opcode.mk op).isVarPush = true := fun h => by have := hv.1 h; omega
        rw [if_pos (by unfold Opcode.isPush; rw [hcc]; rfl)]
        simp only []
        rw [if_neg]
        rintro (⟨-, hn⟩ | ⟨hn, -⟩)
        · apply hn
          unfold Opcode.dataLengthMax
          rw [if_pos hcc]
          exact h2.symm
        · exact hcv hn
      all_goals
        rw [if_pos (by decide)]
        simp only []
        rw [if_neg]
        rintro (⟨hn, -⟩ | ⟨-, hn⟩)
        · exact absurd hn (by decide)
        · apply hn
          refine ⟨Nat.zero_le _, ?_⟩
          simp only [Opcode.dataLengthMax]
          first
            | exact le_trans (by omega : d.length ≤ 2 ^ 8 - 1) (by decide)
            | exact le_trans (by omega : d.length ≤ 2 ^ 16 - 1) (by decide +kernel)
            | exact le_trans (by omega : d.length ≤ 2 ^ 32 - 1) (by decide +kernel)
  · intro d
    by_cases h0 : d = []
    · exact ⟨_, .empty h0⟩
    have h0 : 1 ≤ d.length := List.length_pos_iff.2 h0
    by_cases h1 : d.length ≤ 75
    · exact ⟨_, .push (op := ⟨d.length, by omega⟩) h0 (.inl ⟨h1, rfl⟩)⟩
    by_cases h2 : d.length < 2 ^ 8
    · exact ⟨_, .push h0 (.inr (.inl ⟨by omega, h2, rfl⟩))⟩
    by_cases h3 : d.length < 2 ^ 16
    · exact ⟨_, .push h0 (.inr (.inr (.inl ⟨by omega, h3, rfl⟩)))⟩
    by_cases h4 : d.length < 2 ^ 32
    · exact ⟨_, .push h0 (.inr (.inr (.inr ⟨by omega, h4, rfl⟩)))⟩
    exact ⟨_, .long (by omega)⟩

theorem pushes_made (ds : List Bytes) (r : Except Err (List Instruction)) :
    toInstructions (ds.map fun d => .bytes ⟨.str, d⟩) = r ↔ EachMade PushMade ds r := by
  refine graph (f := fun ds : List Bytes => toInstructions (ds.map fun d => .bytes ⟨.str, d⟩)) ?_ ?_ ds r
  · intro ds r h
    induction h with
    | nil => rfl
    | here h => simp only [List.map_cons, toInstructions, (push_made _ _).2 h]
    | later h _ ih =>
      simp only [List.map_cons, toInstructions, (push_made _ _).2 h]
      rw [ih]
    | next h _ ih =>
      simp only [List.map_cons, toInstructions, (push_made _ _).2 h]
      rw [ih]
  · intro ds
    induction ds with
    | nil => exact ⟨_, .nil⟩
    | cons d ds ih =>
      obtain ⟨r, hr⟩ := ih
      have hd := (push_made d _).1 rfl
      cases hx : (SchemItem.bytes ⟨.str, d⟩).instruction with
      | error e => rw [hx] at hd; exact ⟨_, .here hd⟩
      | ok i =>
        rw [hx] at hd
        cases r with
        | error e => exact ⟨_, .later hd hr⟩
        | ok is => exact ⟨_, .next hd hr⟩

theorem sec_inj {x y : Nat} {c : Bool} {b b' : Bytes} (h : Sec x y c b) (h' : Sec x y c b') : b = b' := by
  obtain ⟨bx, h1, h2, h3⟩ := h
  obtain ⟨bx', h1', h2', h3'⟩ := h'
  have e : bx = bx' := beValue_inj _ _ (h1.trans h1'.symm) (h2.trans h2'.symm)
  subst e
  cases c with
  | true =>
    simp only [if_true] at h3 h3'
    rw [h3, h3']
  | false =>
    simp only [Bool.false_eq_true, if_false] at h3 h3'
    obtain ⟨b1, h4, h5, rfl⟩ := h3
    obtain ⟨b2, h4', h5', rfl⟩ := h3'
    rw [beValue_inj b1 b2 (h4.trans h4'.symm) (h5.trans h5'.symm)]

theorem ownKey_unique {k : PrivateKey} {b b' : Bytes} (h : OwnKey k b) (h' : OwnKey k b') : b = b' := by
  obtain ⟨x, y, hx, hy, hP, hs⟩ := h
  obtain ⟨x', y', hx', hy', hP', hs'⟩ := h'
  cases isPoint_x_unique hP hP' hx hx'
  cases isPoint_y_unique hP hP' hy hy'
  exact sec_inj hs hs'

theorem ownKey_public (k : PrivateKey) (hk : k.Good) : ∃ q b, k.toPublicKey = .ok q ∧ q.toBytes = .ok b ∧ OwnKey k b ∧
    ∃ j, PushMade b (.ok j) := by
  have hm : PrivateKey.make k.secret (.network k.network) k.compressed = .ok k := by
    rw [make_network, if_pos ⟨hk.1, hk.2⟩]
  obtain ⟨x, y, hq, hx, hy, hon, hP⟩ := C20_public_key _ _ _ _ hm
  obtain ⟨b, hb, hs⟩ := C18_to_bytes ⟨(x, y), k.network, k.compressed⟩ hx hy
  refine ⟨_, b, hq, hb, ⟨x, y, hx, hy, hP, hs⟩, ?_⟩
  have hl : b.length = 33 ∨ b.length = 65 := by
    obtain ⟨bx, h1, -, h3⟩ := hs
    split at h3
    · rw [h3]; simp [h1]
    · obtain ⟨b2, h4, -, rfl⟩ := h3; simp [h1, h4]
  exact ⟨_, .push (op := ⟨b.length, by omega⟩) (by omega) (.inl ⟨by omega, rfl⟩)⟩

/-! ## Inputs -/

/-- Each input has one outcome. -/
theorem inputSigned_exists (S : Signer) (x : Input) (ks : List PrivateKey) (hk : ∀ k ∈ ks, k.Good) (p : Bytes) (st : Int) :
    InputSigned S x ks p st (x.sign S ks p st) := by
  have byScript : x.cls = .script ∨ x.cls = .multisig → InputSigned S x ks p st (x.signScript S ks p st) := by
    intro hc
    unfold Input.signScript
    rcases sigs_graph S p st ks 0 with ⟨e, h1, h2⟩ | ⟨ds, h1, h2⟩
    · rw [h1]; exact .signatures hc h2
    rw [h1]
    simp only []
    unfold PayToScriptIn.create
    have hr := (C119_script x.script _).1 rfl
    cases hb : x.script.toBytes with
    | error e => rw [hb] at hr; exact .redeem hc h2 hr
    | ok b =>
      rw [hb] at hr
      simp only []
      have hl : (([SchemItem.opcode (.num 0)] ++ (ds.map fun d => (⟨.str, d⟩ : Data)).map SchemItem.bytes ++ [.bytes ⟨.str, b⟩]) : List SchemItem) =
          .opcode (.num 0) :: (ds ++ [b]).map fun d => .bytes ⟨.str, d⟩ := by
        simp [List.map_map, Function.comp_def]
      rw [hl]
      have hp := (pushes_made (ds ++ [b]) _).1 rfl
      have h0 : (SchemItem.opcode (.num 0)).instruction = .ok ⟨⟨0⟩, none⟩ := by decide
      unfold ofSchematic
      simp only [toInstructions, h0]
      cases hi : toInstructions ((ds ++ [b]).map fun d => .bytes ⟨.str, d⟩) with
      | error e => rw [hi] at hp; exact .pushes hc h2 hr hp
      | ok is => rw [hi] at hp; exact .script hc h2 hr hp
  unfold Input.sign
  cases hc : x.cls with
  | generic => exact .plain hc
  | script => exact byScript (.inl hc)
  | multisig => exact byScript (.inr hc)
  | address =>
    simp only []
    match ks, hk with
    | [], _ => exact .count hc (by simp)
    | _ :: _ :: _, _ => exact .count hc (by simp)
    | [k], hk =>
      unfold Input.signAddress
      obtain ⟨q, b, hq, hb, hown, j, hj⟩ := ownKey_public k (hk k (by simp))
      simp only [hq]
      rcases sig_graph S p st 0 k with ⟨e, h1, h2⟩ | ⟨d, h1, h2⟩
      · rw [h1]; exact .signature hc rfl h2
      rw [h1]
      simp only [PayToPubkeyIn.create, hb, ofSchematic]
      have hd := (pushes_made [d, b] _).1 rfl
      simp only [List.map_cons, List.map_nil] at hd
      cases hi : toInstructions [.bytes ⟨.str, d⟩, .bytes ⟨.str, b⟩] with
      | error e =>
        rw [hi] at hd
        cases hd with
        | here h => exact .push hc rfl h2 h
        | later _ h =>
          cases h with
          | here h => cases ((push_made _ _).2 h).symm.trans ((push_made _ _).2 hj)
          | later _ h => cases h
      | ok is =>
        rw [hi] at hd
        cases hd with
        | next h1 h =>
          cases h with
          | next h' h'' => cases h''; exact .address hc rfl h2 hown h1 h'

theorem inputSigned_unique {S : Signer} {x : Input} {ks : List PrivateKey} {p : Bytes} {st : Int} {r r' : Except Err Input}
    (h : InputSigned S x ks p st r) (h' : InputSigned S x ks p st r') : r = r' := by
  have pu : ∀ {d r r'}, PushMade d r → PushMade d r' → r = r' :=
    fun h h' => ((push_made _ _).2 h).symm.trans ((push_made _ _).2 h')
  have su : ∀ {s r r'}, ScriptWritten s r → ScriptWritten s r' → r = r' :=
    fun h h' => ((C119_script _ _).2 h).symm.trans ((C119_script _ _).2 h')
  have eu : ∀ {r r'}, EachMade (fun kn r => SigMade S p st kn.2 kn.1 r) ks.zipIdx r →
      EachMade (fun kn r => SigMade S p st kn.2 kn.1 r) ks.zipIdx r' → r = r' :=
    fun h h' => each_unique (R := fun (kn : PrivateKey × Nat) r => SigMade S p st kn.2 kn.1 r) (fun kn _ _ g g' => sigMade_unique (n := kn.2) (k := kn.1) g g') h h'
  have qu : ∀ {ds r r'}, EachMade PushMade ds r → EachMade PushMade ds r' → r = r' :=
    fun h h' => each_unique (R := PushMade) (fun _ _ _ g g' => pu g g') h h'
  have ng : ∀ {c : InputClass}, c = .generic → ¬ c = .address := fun h h' => by rw [h] at h'; cases h'
  have ngs : ∀ {c : InputClass}, c = .generic → ¬ (c = .script ∨ c = .multisig) := fun h h' => by rw [h] at h'; simp at h'
  have nas : ∀ {c : InputClass}, c = .address → ¬ (c = .script ∨ c = .multisig) := fun h h' => by rw [h] at h'; simp at h'
  cases h with
  | plain c =>
    cases h' with
    | plain => rfl
    | count c' | signature c' | push c' | address c' => exact absurd c' (ng c)
    | signatures c' | redeem c' | pushes c' | script c' => exact absurd c' (ngs c)
  | count c n =>
    cases h' with
    | plain c' => exact absurd c (ng c')
    | count c' => rfl
    | signature c' e | push c' e | address c' e => subst e; simp at n
    | signatures c' | redeem c' | pushes c' | script c' => exact absurd c' (nas c)
  | signature c e s =>
    cases h' with
    | plain c' => exact absurd c (ng c')
    | count c' n => subst e; simp at n
    | signature c' e' s' => cases e.symm.trans e'; cases sigMade_unique s s'; rfl
    | push c' e' s' | address c' e' s' => cases e.symm.trans e'; cases sigMade_unique s s'
    | signatures c' | redeem c' | pushes c' | script c' => exact absurd c' (nas c)
  | push c e s q =>
    cases h' with
    | plain c' => exact absurd c (ng c')
    | count c' n => subst e; simp at n
    | signature c' e' s' => cases e.symm.trans e'; cases sigMade_unique s s'
    | push c' e' s' q' => cases e.symm.trans e'; cases sigMade_unique s s'; cases pu q q'; rfl
    | address c' e' s' o' q' => cases e.symm.trans e'; cases sigMade_unique s s'; cases pu q q'
    | signatures c' | redeem c' | pushes c' | script c' => exact absurd c' (nas c)
  | address c e s o q w =>
    cases h' with
    | plain c' => exact absurd c (ng c')
    | count c' n => subst e; simp at n
    | signature c' e' s' => cases e.symm.trans e'; cases sigMade_unique s s'
    | push c' e' s' q' => cases e.symm.trans e'; cases sigMade_unique s s'; cases pu q q'
    | address c' e' s' o' q' w' =>
      cases e.symm.trans e'; cases sigMade_unique s s'; cases pu q q'; cases ownKey_unique o o'; cases pu w w'; rfl
    | signatures c' | redeem c' | pushes c' | script c' => exact absurd c' (nas c)
  | signatures c s =>
    cases h' with
    | plain c' => exact absurd c (ngs c')
    | count c' | signature c' | push c' | address c' => exact absurd c (nas c')
    | signatures c' s' => cases eu s s'; rfl
    | redeem c' s' | pushes c' s' | script c' s' => cases eu s s'
  | redeem c s q =>
    cases h' with
    | plain c' => exact absurd c (ngs c')
    | count c' | signature c' | push c' | address c' => exact absurd c (nas c')
    | signatures c' s' => cases eu s s'
    | redeem c' s' q' => cases su q q'; rfl
    | pushes c' s' q' | script c' s' q' => cases su q q'
  | pushes c s q w =>
    cases h' with
    | plain c' => exact absurd c (ngs c')
    | count c' | signature c' | push c' | address c' => exact absurd c (nas c')
    | signatures c' s' => cases eu s s'
    | redeem c' s' q' => cases su q q'
    | pushes c' s' q' w' => cases eu s s'; cases su q q'; cases qu w w'; rfl
    | script c' s' q' w' => cases eu s s'; cases su q q'; cases qu w w'
  | script c s q w =>
    cases h' with
    | plain c' => exact absurd c (ngs c')
    | count c' | signature c' | push c' | address c' => exact absurd c (nas c')
    | signatures c' s' => cases eu s s'
    | redeem c' s' q' => cases su q q'
    | pushes c' s' q' w' => cases eu s s'; cases su q q'; cases qu w w'
    | script c' s' q' w' => cases eu s s'; cases su q q'; cases qu w w'; rfl

/-- C120. What `sign` of an input does, for every input, list of keys, digest, type and signer. -/
theorem C120_input (S : Signer) (x : Input) (ks : List PrivateKey) (hk : ∀ k ∈ ks, k.Good) (p : Bytes) (st : Int)
    (r : Except Err Input) : x.sign S ks p st = r ↔ InputSigned S x ks p st r :=
  ⟨fun h => h ▸ inputSigned_exists S x ks hk p st, fun h => inputSigned_unique (inputSigned_exists S x ks hk p st) h⟩

/-! ## Transactions -/

theorem atIndex_mapIdx {α : Type} (f g : α → α) (i : Int) (xs : List α) :
    Transaction.atIndex f g i 0 xs = xs.mapIdx fun n x => if (n : Int) = i then f x else g x := by
  apply List.ext_getElem?
  intro n
  rw [atIndex_get, List.getElem?_mapIdx, Nat.zero_add]

theorem replace_graph (t : Transaction) (is : List Input) (hl : is.length = t.inputs.length) :
    (∃ e, Unmakeable t e ∧ t.replaceInputs is = .error e) ∨
      (∀ e, ¬ Unmakeable t e) ∧ t.Legal ∧ t.replaceInputs is = .ok { t with inputs := is } := by
  have hn : is = [] ↔ t.inputs = [] := by rw [← List.length_eq_zero_iff, hl, List.length_eq_zero_iff]
  by_cases h1 : t.inputs = []
  · refine .inl ⟨_, .inputs h1, ?_⟩
    rw [hn.2 h1]
    rfl
  have h1' : is ≠ [] := fun h => h1 (hn.1 h)
  by_cases h2 : t.outputs = []
  · refine .inl ⟨_, .outputs h1 h2, ?_⟩
    unfold Transaction.replaceInputs Transaction.new
    rw [if_neg (by simpa using h1'), mapM_some, h2]
    rfl
  by_cases h3 : t.lockTime < 0 ∨ 2 ^ 32 ≤ t.lockTime
  · refine .inl ⟨_, .lockTime h1 h2 h3, ?_⟩
    unfold Transaction.replaceInputs Transaction.new
    rw [if_neg (by simpa using h1'), mapM_some]
    simp only []
    rw [if_neg (by simpa using h2), mapM_some]
    simp only []
    rw [if_pos (by omega)]
  · have hL : t.Legal := ⟨h1, h2, by omega⟩
    refine .inr ⟨?_, hL, replaceInputs_ok t is hL h1'⟩
    intro e he
    cases he with
    | inputs h => exact h1 h
    | outputs _ h => exact h2 h
    | lockTime _ _ h => exact h3 h

theorem unmakeable_unique {t : Transaction} {e e' : Err} (h : Unmakeable t e) (h' : Unmakeable t e') : e = e' := by
  cases h with
  | inputs h =>
    cases h' with
    | inputs => rfl
    | outputs g => exact absurd h g
    | lockTime g => exact absurd h g
  | outputs h1 h2 =>
    cases h' with
    | inputs g => exact absurd g h1
    | outputs => rfl
    | lockTime _ g => exact absurd h2 g
  | lockTime h1 h2 h3 =>
    cases h' with
    | inputs g => exact absurd g h1
    | outputs _ g => exact absurd g h2
    | lockTime => rfl

/-- C120. What `sign` of a transaction does, for every transaction, list of keys, index, type and signer. -/
theorem C120_transaction (H : Hashes) (S : Signer) (t : Transaction) (ks : List PrivateKey) (hk : ∀ k ∈ ks, k.Good) (i st : Int)
    (r : Except Err Transaction) : t.sign H S ks i st = r ↔ TransactionSigned H S t ks i st r := by
  have he : ({ t with inputs := Transaction.atIndex (fun x => x) Input.removeScript i 0 t.inputs } : Transaction) = emptied t i := by
    unfold emptied
    rw [atIndex_mapIdx]
    rfl
  have hw : ∀ y, ({ t with inputs := Transaction.atIndex (fun _ => y) (fun x => x) i 0 t.inputs } : Transaction) = withInput t i y := by
    intro y
    unfold withInput
    rw [atIndex_mapIdx]
  have pos : ∀ x, Transaction.pyIndex t.inputs i = .ok x ↔ -t.inputs.length ≤ i ∧
      t.inputs[(if i < 0 then i + t.inputs.length else i).toNat]? = some x := by
    intro x
    rw [pyIndex_ok_iff]
    unfold resolve
    constructor
    · rintro ⟨h1, h2⟩
      exact ⟨by split at h1 <;> omega, h2⟩
    · rintro ⟨h1, h2⟩
      exact ⟨by split <;> omega, h2⟩
  have wu : ∀ {r r'}, TransactionWritten (emptied t i) r → TransactionWritten (emptied t i) r' → r = r' :=
    fun h h' => ((C119_transaction _ _).2 h).symm.trans ((C119_transaction _ _).2 h')
  have ex : TransactionSigned H S t ks i st (t.sign H S ks i st) := by
    unfold Transaction.sign Transaction.payload
    rcases replace_graph t (Transaction.atIndex (fun x => x) Input.removeScript i 0 t.inputs) (atIndex_length _ _ _ _ _) with
      ⟨e, h1, h2⟩ | ⟨h1, hL, h2⟩
    · rw [h2]; exact .unmakeable h1
    rw [h2, he]
    simp only []
    have hb := (C119_transaction (emptied t i) _).1 rfl
    cases hbb : (emptied t i).toBytes with
    | error e => rw [hbb] at hb; exact .payload h1 hb
    | ok b =>
      rw [hbb] at hb
      simp only [encodeInt_le]
      cases hx : Transaction.pyIndex t.inputs i with
      | error e =>
        by_cases hin : -(t.inputs.length : Int) ≤ i ∧ i < t.inputs.length
        · exfalso
          have hlt : (if i < 0 then i + t.inputs.length else i).toNat < t.inputs.length := by split <;> omega
          have := (pos t.inputs[(if i < 0 then i + t.inputs.length else i).toNat]).2 ⟨hin.1, List.getElem?_eq_getElem hlt⟩
          rw [hx] at this
          cases this
        · rw [pyIndex_error _ _ hin] at hx
          cases hx
          exact .index h1 hb (by omega)
      | ok x =>
        simp only []
        obtain ⟨h3, h4⟩ := (pos x).1 hx
        have hs := inputSigned_exists S x ks hk (H.sha256 (H.sha256 (b ++ le 4 st.toNat))) st
        cases hy : x.sign S ks (H.sha256 (H.sha256 (b ++ le 4 st.toNat))) st with
        | error e => rw [hy] at hs; exact .input h1 hb h3 h4 hs
        | ok y =>
          rw [hy] at hs
          simp only []
          rcases replace_graph t (Transaction.atIndex (fun _ => y) (fun x => x) i 0 t.inputs) (atIndex_length _ _ _ _ _) with
            ⟨e, h5, _⟩ | ⟨_, _, h5⟩
          · exact absurd h5 (h1 e)
          · rw [h5, hw]; exact .signed h1 hb h3 h4 hs
  have un : ∀ {r r'}, TransactionSigned H S t ks i st r → TransactionSigned H S t ks i st r' → r = r' := by
    intro r r' h h'
    have out : ∀ {x}, t.inputs[(if i < 0 then i + (t.inputs.length : Int) else i).toNat]? = some x → -(t.inputs.length : Int) ≤ i →
        ¬ (i < -(t.inputs.length : Int) ∨ (t.inputs.length : Int) ≤ i) := by
      intro x hx h0
      obtain ⟨hlt, -⟩ := List.getElem?_eq_some_iff.1 hx
      split at hlt <;> omega
    cases h with
    | unmakeable h =>
      cases h' with
      | unmakeable h' => cases unmakeable_unique h h'; rfl
      | payload g | index g | input g | signed g => exact absurd h (g _)
    | payload g h =>
      cases h' with
      | unmakeable h' => exact absurd h' (g _)
      | payload _ h' => cases wu h h'; rfl
      | index _ h' | input _ h' | signed _ h' => cases wu h h'
    | index g h o =>
      cases h' with
      | unmakeable h' => exact absurd h' (g _)
      | payload _ h' => cases wu h h'
      | index => rfl
      | input _ _ h0 hx | signed _ _ h0 hx => exact absurd o (out hx h0)
    | input g h h0 hx hs =>
      cases h' with
      | unmakeable h' => exact absurd h' (g _)
      | payload _ h' => cases wu h h'
      | index _ _ o => exact absurd o (out hx h0)
      | input _ h' _ hx' hs' => cases wu h h'; cases hx.symm.trans hx'; cases inputSigned_unique hs hs'; rfl
      | signed _ h' _ hx' hs' => cases wu h h'; cases hx.symm.trans hx'; cases inputSigned_unique hs hs'
    | signed g h h0 hx hs =>
      cases h' with
      | unmakeable h' => exact absurd h' (g _)
      | payload _ h' => cases wu h h'
      | index _ _ o => exact absurd o (out hx h0)
      | input _ h' _ hx' hs' => cases wu h h'; cases hx.symm.trans hx'; cases inputSigned_unique hs hs'
      | signed _ h' _ hx' hs' => cases wu h h'; cases hx.symm.trans hx'; cases inputSigned_unique hs hs'; rfl
  exact ⟨fun h => h ▸ ex, fun h => un ex h⟩

/-! ## Examples -/

/-- An empty redeem script cannot be pushed; the signer has been asked by then. -/
example (x : Input) (hc : x.cls = .script) (hs : x.script.instructions = []) :
    x.sign (fun _ _ _ => .ok [9, 9]) [⟨1, .livenet, true⟩] [7] 1 = .error .opInvalidConstPushLength := by
  refine (C120_input _ _ _ (by simp [PrivateKey.Good]; decide) _ _ _).2 (.pushes (ds := [[9, 9, 1]]) (b := []) (.inl hc) ?_ ?_ ?_)
  · exact .next (.bytes (s := [9, 9]) (c := 1) rfl rfl) .nil
  · unfold ScriptWritten; rw [hs]; exact .nil
  · exact .later (.push (op := 3) (by decide) (.inl ⟨by decide, rfl⟩)) (.here (.empty rfl))

/-- The second of two keys has the signer fail: the first signature is lost. -/
example (x : Input) (hc : x.cls = .multisig) (k : PrivateKey) (hk : k.Good) :
    x.sign (fun n _ _ => if n = 1 then .error .runtimeError else .ok [9]) [k, k] [7] 1 = .error .runtimeError :=
  (C120_input _ _ _ (by simpa using hk) _ _ _).2
    (.signatures (.inr hc) (.later (.bytes (s := [9]) (c := 1) rfl rfl) (.here (.signer rfl))))

/-- A type of 256 is found out only after signing, and only where the input is of a class that signs. -/
example (x : Input) (hc : x.cls = .address) (k : PrivateKey) (hk : k.Good) :
    x.sign (fun _ _ _ => .ok [9]) [k] [7] 256 = .error .valueError :=
  (C120_input _ _ _ (by simpa using hk) _ _ _).2 (.signature hc rfl (.type rfl (.inr (by decide))))
example (x : Input) (hc : x.cls = .generic) (k : PrivateKey) (hk : k.Good) :
    x.sign (fun _ _ _ => .ok [9]) [k] [7] 256 = .error .inUnknownSignatureMethod :=
  (C120_input _ _ _ (by simpa using hk) _ _ _).2 (.plain hc)

/-- A transaction made without the constructor's checks is refused before its inputs are looked at. -/
example (ks : List PrivateKey) (hk : ∀ k ∈ ks, k.Good) (S : Signer) (i : Int) :
    (⟨[⟨.generic, ['x'], 0, ⟨.generic, []⟩, 0⟩], [⟨.generic, 0, ⟨.generic, []⟩⟩], -1, 1⟩ : Transaction).sign .toy S ks i 1 =
      .error .txInvalidLockTime :=
  (C120_transaction _ _ _ _ hk _ _ _).2 (.unmakeable (.lockTime (by simp) (by simp) (.inl (by decide))))

end Bitforge
