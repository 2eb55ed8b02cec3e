import Verif.Props.SignOutcome
import Verif.Props.Readers
import Verif.Props.InOut

/-! # C121: what the makers of scripts, inputs and outputs make, and what can_sign says -/

namespace Bitforge
open Spec

/-! ## The outcomes -/

/-- A number as one opcode. -/
inductive SmallMade (n : Int) : Except Err Opcode → Prop
  | outside : n < 0 ∨ 16 < n → SmallMade n (.error .valueError)
  | zero : n = 0 → SmallMade n (.ok ⟨0⟩)
  | small {b : Byte} : 1 ≤ n → n ≤ 16 → (b.val : Int) = 80 + n → SmallMade n (.ok ⟨b⟩)

/-- A push of a byte string of either type in a schematic: a `bytearray` is not `bytes`. -/
inductive DataMade (d : Data) : Except Err Instruction → Prop
  | kind : d.kind = .bytearray → DataMade d (.error .typeError)
  | str {r} : d.kind = .str → PushMade d.val r → DataMade d r

/-- Something made of a part, or the exception of the part. -/
inductive MadeOf {α β : Type} (g : α → β) (R : Except Err α → Prop) : Except Err β → Prop
  | error {e} : R (.error e) → MadeOf g R (.error e)
  | made {x} : R (.ok x) → MadeOf g R (.ok (g x))

/-- `PayToPubkeyOut.create`. -/
inductive PubkeyOutMade (a : Address) : Except Err Script → Prop
  | hash {e} : PushMade a.phash (.error e) → PubkeyOutMade a (.error e)
  | script {i} : PushMade a.phash (.ok i) →
      PubkeyOutMade a (.ok ⟨.payToPubkeyOut, [⟨⟨0x76⟩, none⟩, ⟨⟨0xa9⟩, none⟩, i, ⟨⟨0x88⟩, none⟩, ⟨⟨0xac⟩, none⟩]⟩)

/-- `PayToScriptOut.create`. -/
inductive ScriptOutMade (H : Hashes) (s : Script) : Except Err Script → Prop
  | script {e} : ScriptWritten s (.error e) → ScriptOutMade H s (.error e)
  | hash {b} : ScriptWritten s (.ok b) → ScriptOutMade H s (.ok ⟨.payToScriptOut,
      [⟨⟨0xa9⟩, none⟩, ⟨⟨20⟩, some ⟨.str, H.ripemd160 (H.sha256 b)⟩⟩, ⟨⟨0x87⟩, none⟩]⟩)

/-- `OpReturnOut.create`. -/
inductive ReturnMade (d : Data) : Except Err Script → Prop
  | data {e} : DataMade d (.error e) → ReturnMade d (.error e)
  | script {i} : DataMade d (.ok i) → ReturnMade d (.ok ⟨.opReturnOut, [⟨⟨0x6a⟩, none⟩, i]⟩)

/-- `PayToPubkeyIn.create`: the key is written before the signature is looked at. -/
inductive PubkeyInMade (k : PublicKey) (d : Data) : Except Err Script → Prop
  | key {e} : SecWritten k (.error e) → PubkeyInMade k d (.error e)
  | signature {b e} : SecWritten k (.ok b) → DataMade d (.error e) → PubkeyInMade k d (.error e)
  | script {b i j} : SecWritten k (.ok b) → DataMade d (.ok i) → PushMade b (.ok j) →
      PubkeyInMade k d (.ok ⟨.payToPubkeyIn, [i, j]⟩)

/-- `PayToScriptIn.create`. -/
inductive ScriptInMade (s : Script) (ds : List Data) : Except Err Script → Prop
  | redeem {e} : ScriptWritten s (.error e) → ScriptInMade s ds (.error e)
  | pushes {b e} : ScriptWritten s (.ok b) → EachMade DataMade (ds ++ [⟨.str, b⟩]) (.error e) → ScriptInMade s ds (.error e)
  | script {b is} : ScriptWritten s (.ok b) → EachMade DataMade (ds ++ [⟨.str, b⟩]) (.ok is) →
      ScriptInMade s ds (.ok ⟨.payToScriptIn, ⟨⟨0⟩, none⟩ :: is⟩)

/-- `RedeemMultisig.create`: the number of signatures is looked at first, the number of keys last. -/
inductive MultisigMade (ks : List PublicKey) (m : Int) : Except Err Script → Prop
  | number {e} : SmallMade m (.error e) → MultisigMade ks m (.error e)
  | key {o e} : SmallMade m (.ok o) → EachMade SecWritten ks (.error e) → MultisigMade ks m (.error e)
  | count {o bs e} : SmallMade m (.ok o) → EachMade SecWritten ks (.ok bs) → SmallMade ks.length (.error e) →
      MultisigMade ks m (.error e)
  | script {o bs p is} : SmallMade m (.ok o) → EachMade SecWritten ks (.ok bs) → SmallMade ks.length (.ok p) →
      EachMade PushMade bs (.ok is) →
      MultisigMade ks m (.ok ⟨.redeemMultisig, ⟨o, none⟩ :: (is ++ [⟨p, none⟩, ⟨⟨0xae⟩, none⟩])⟩)

/-- `DataOutput.create`. -/
inductive DataOutputMade (d : Data) : Except Err Output → Prop
  | long : 80 < d.val.length → DataOutputMade d (.error .outTooMuchData)
  | script {e} : d.val.length ≤ 80 → ReturnMade d (.error e) → DataOutputMade d (.error e)
  | output {s} : d.val.length ≤ 80 → ReturnMade d (.ok s) → DataOutputMade d (.ok ⟨.data, 0, s⟩)

/-- `AddressInput.can_sign`. -/
inductive AddressSays (H : Hashes) (x : Input) (ks : List PrivateKey) : Except Err Bool → Prop
  | count : ks.length ≠ 1 → AddressSays H x ks (.ok false)
  | method {k} : ks = [k] → x.script.cls ≠ .payToPubkeyOut → AddressSays H x ks (.error .attributeError)
  | index {k} : ks = [k] → x.script.cls = .payToPubkeyOut → x.script.instructions.length < 3 →
      AddressSays H x ks (.error .indexError)
  | yes {k b i j l rest d} : ks = [k] → x.script.cls = .payToPubkeyOut → x.script.instructions = i :: j :: l :: rest →
      OwnKey k b → l.data = some d → d.val = H.ripemd160 (H.sha256 b) → AddressSays H x ks (.ok true)
  | no {k b i j l rest} : ks = [k] → x.script.cls = .payToPubkeyOut → x.script.instructions = i :: j :: l :: rest →
      OwnKey k b → (∀ d, l.data = some d → d.val ≠ H.ripemd160 (H.sha256 b)) → AddressSays H x ks (.ok false)

/-- The number that an opcode stands for. -/
inductive SmallRead (b : Byte) : Except Err Int → Prop
  | none : b.val ≠ 0 → b.val < 81 ∨ 96 < b.val → Named b → SmallRead b (.error .opWrongType)
  | nameless : b.val ≠ 0 → b.val < 81 ∨ 96 < b.val → ¬ Named b → SmallRead b (.error .keyError)
  | zero : b.val = 0 → SmallRead b (.ok 0)
  | small : 81 ≤ b.val → b.val ≤ 96 → SmallRead b (.ok ((b.val : Int) - 80))

/-- The key that is pushed: on the main network, and only from a `str`. -/
inductive KeyRead : Instruction → Except Err PublicKey → Prop
  | none {o} : KeyRead ⟨o, none⟩ (.error .typeError)
  | kind {o b} : KeyRead ⟨o, some ⟨.bytearray, b⟩⟩ (.error .pubInvalidBinary)
  | key {o b r} : PublicOutcome .livenet b r → KeyRead ⟨o, some ⟨.str, b⟩⟩ r

/-- The public key of `k` is among the keys `qs`: same point, same network and same form. -/
def Among (qs : List PublicKey) (k : PrivateKey) : Prop := ∃ q ∈ qs, q.network = k.network ∧ q.compressed = k.compressed ∧
  reduced q.pair.1 ∧ reduced q.pair.2 ∧ IsPoint q.pair.1 q.pair.2 (k.secret.toNat • G)

/-- `MultisigInput.can_sign`. -/
inductive MultisigSays (x : Input) (ks : List PrivateKey) : Except Err Bool → Prop
  | method : x.script.cls ≠ .redeemMultisig → MultisigSays x ks (.error .attributeError)
  | index : x.script.cls = .redeemMultisig → x.script.instructions = [] → MultisigSays x ks (.error .indexError)
  | number {i rest e} : x.script.cls = .redeemMultisig → x.script.instructions = i :: rest →
      SmallRead i.opcode.number (.error e) → MultisigSays x ks (.error e)
  | count {i rest m} : x.script.cls = .redeemMultisig → x.script.instructions = i :: rest →
      SmallRead i.opcode.number (.ok m) → (ks.length : Int) ≠ m → MultisigSays x ks (.ok false)
  | key {i rest m e} : x.script.cls = .redeemMultisig → x.script.instructions = i :: rest →
      SmallRead i.opcode.number (.ok m) → (ks.length : Int) = m →
      EachMade KeyRead (rest.take (rest.length - 2)) (.error e) → MultisigSays x ks (.error e)
  | yes {i rest m qs} : x.script.cls = .redeemMultisig → x.script.instructions = i :: rest →
      SmallRead i.opcode.number (.ok m) → (ks.length : Int) = m →
      EachMade KeyRead (rest.take (rest.length - 2)) (.ok qs) → (∀ k ∈ ks, Among qs k) → MultisigSays x ks (.ok true)
  | no {i rest m qs} : x.script.cls = .redeemMultisig → x.script.instructions = i :: rest →
      SmallRead i.opcode.number (.ok m) → (ks.length : Int) = m →
      EachMade KeyRead (rest.take (rest.length - 2)) (.ok qs) → ¬ (∀ k ∈ ks, Among qs k) → MultisigSays x ks (.ok false)

/-! ## Scripts -/

theorem small_made (n : Int) (r : Except Err Opcode) : Opcode.forNumber n = r ↔ SmallMade n r := by
  refine graph (R := SmallMade) ?_ ?_ n r
  · intro n r h
    unfold Opcode.forNumber
    cases h with
    | outside h => rw [if_neg (by omega)]
    | zero h => subst h; rfl
    | @small b h1 h2 h3 =>
      rw [if_pos (by omega), if_neg (by omega)]
      unfold Opcode.make
      rw [if_neg (by omega)]
      have := b.isLt
      rw [mk_fin _ (by omega)]
      congr 2
      exact Fin.ext (by show (81 + n - 1).toNat = b.val; omega)
  · intro n
    by_cases h : n < 0 ∨ 16 < n
    · exact ⟨_, .outside h⟩
    by_cases h0 : n = 0
    · exact ⟨_, .zero h0⟩
    exact ⟨_, .small (b := ⟨(80 + n).toNat, by omega⟩) (by omega) (by omega) (by simp only []; omega)⟩

theorem data_made (d : Data) (r : Except Err Instruction) : (SchemItem.bytes d).instruction = r ↔ DataMade d r := by
  obtain ⟨k, b⟩ := d
  cases k with
  | bytearray =>
    constructor
    · rintro rfl; exact .kind rfl
    · intro h
      cases h with
      | kind => rfl
      | str h => cases h
  | str =>
    rw [push_made]
    constructor
    · exact fun h => .str rfl h
    · intro h
      cases h with
      | kind h => cases h
      | str _ h => exact h

theorem each_graph {α β : Type} {R : α → Except Err β → Prop} {f : α → Except Err β} {g : List α → Except Err (List β)}
    (hf : ∀ x r, f x = r ↔ R x r) (h0 : g [] = .ok [])
    (he : ∀ x xs e, f x = .error e → g (x :: xs) = .error e)
    (hr : ∀ x xs y e, f x = .ok y → g xs = .error e → g (x :: xs) = .error e)
    (ho : ∀ x xs y ys, f x = .ok y → g xs = .ok ys → g (x :: xs) = .ok (y :: ys)) (xs : List α)
    (r : Except Err (List β)) : g xs = r ↔ EachMade R xs r := by
  refine graph (f := g) ?_ ?_ xs r
  · intro xs r h
    induction h with
    | nil => exact h0
    | here h => exact he _ _ _ ((hf _ _).2 h)
    | later h _ ih => exact hr _ _ _ _ ((hf _ _).2 h) ih
    | next h _ ih => exact ho _ _ _ _ ((hf _ _).2 h) ih
  · intro xs
    induction xs with
    | nil => exact ⟨_, .nil⟩
    | cons x xs ih =>
      obtain ⟨r, hr⟩ := ih
      have hx := (hf x _).1 rfl
      cases h : f x with
      | error e => rw [h] at hx; exact ⟨_, .here hx⟩
      | ok y =>
        rw [h] at hx
        cases r with
        | error e => exact ⟨_, .later hx hr⟩
        | ok ys => exact ⟨_, .next hx hr⟩

theorem datas_made (ds : List Data) (r : Except Err (List Instruction)) :
    toInstructions (ds.map .bytes) = r ↔ EachMade DataMade ds r :=
  each_graph (g := fun ds => toInstructions (ds.map .bytes)) data_made rfl
    (fun x xs e h => by simp only [List.map_cons, toInstructions, h])
    (fun x xs y e h h' => by simp only [List.map_cons, toInstructions, h, h'])
    (fun x xs y ys h h' => by simp only [List.map_cons, toInstructions, h, h']) ds r

theorem mapM_each {α β : Type} {R : α → Except Err β → Prop} {f : α → Except Err β} (hf : ∀ x r, f x = r ↔ R x r) (xs : List α)
    (r : Except Err (List β)) : xs.mapM f = r ↔ EachMade R xs r :=
  each_graph (g := fun xs => xs.mapM f) hf rfl
    (fun x xs e h => by simp only [List.mapM_cons, h]; rfl)
    (fun x xs y e h h' => by simp only [List.mapM_cons, h, h']; rfl)
    (fun x xs y ys h h' => by simp only [List.mapM_cons, h, h']; rfl) xs r

theorem plain_opcode (b : Byte) (h : pushKind b = .plain) : (SchemItem.opcode ⟨b⟩).instruction = .ok ⟨⟨b⟩, none⟩ := by
  simp only [SchemItem.instruction, instr_make, h]

/-- C121. The script of an address. -/
theorem C121_pubkey_out (a : Address) (r : Except Err Script) : PayToPubkeyOut.create a = r ↔ PubkeyOutMade a r := by
  refine graph (R := PubkeyOutMade) ?_ ?_ a r
  · intro a r h
    have e : ∀ n : Nat, n < 256 → pushKind (Opcode.num n).number = .plain → (SchemItem.opcode (.num n)).instruction = .ok ⟨⟨Fin.ofNat 256 n⟩, none⟩ :=
      fun n _ h => plain_opcode _ h
    unfold PayToPubkeyOut.create ofSchematic
    cases h with
    | hash h =>
      simp only [toInstructions, e 118 (by decide) (by decide), e 169 (by decide) (by decide), (push_made _ _).2 h]
    | script h =>
      simp only [toInstructions, e 118 (by decide) (by decide), e 169 (by decide) (by decide), e 136 (by decide) (by decide),
        e 172 (by decide) (by decide), (push_made _ _).2 h]
      rfl
  · intro a
    have h := (push_made a.phash _).1 rfl
    cases hx : (SchemItem.bytes ⟨.str, a.phash⟩).instruction with
    | error e => rw [hx] at h; exact ⟨_, .hash h⟩
    | ok i => rw [hx] at h; exact ⟨_, .script h⟩

/-- C121. The script of the hash of a script. -/
theorem C121_script_out (H : Hashes) (s : Script) (r : Except Err Script) :
    PayToScriptOut.create H s = r ↔ ScriptOutMade H s r := by
  refine graph (f := PayToScriptOut.create H) ?_ ?_ s r
  · intro s r h
    unfold PayToScriptOut.create Script.toHash ofSchematic
    cases h with
    | script h => rw [(C119_script _ _).2 h]; rfl
    | @hash b h =>
      rw [(C119_script _ _).2 h]
      have hl := H.ripemd160_length (H.sha256 b)
      have hp : (SchemItem.bytes ⟨.str, H.ripemd160 (H.sha256 b)⟩).instruction =
          .ok ⟨⟨20⟩, some ⟨.str, H.ripemd160 (H.sha256 b)⟩⟩ :=
        (push_made _ _).2 (.push (by omega) (.inl ⟨by omega, by rw [hl]; rfl⟩))
      simp only [Except.map, toInstructions, hp, plain_opcode (Opcode.num 169).number (by decide),
        plain_opcode (Opcode.num 135).number (by decide)]
      rfl
  · intro s
    have h := (C119_script s _).1 rfl
    cases hx : s.toBytes with
    | error e => rw [hx] at h; exact ⟨_, .script h⟩
    | ok b => rw [hx] at h; exact ⟨_, .hash h⟩

/-- C121. The script that carries data. -/
theorem C121_return (d : Data) (r : Except Err Script) : OpReturnOut.create d = r ↔ ReturnMade d r := by
  refine graph (R := ReturnMade) ?_ ?_ d r
  · intro d r h
    unfold OpReturnOut.create ofSchematic
    cases h with
    | data h => simp only [toInstructions, plain_opcode (Opcode.num 106).number (by decide), (data_made _ _).2 h]
    | script h => simp only [toInstructions, plain_opcode (Opcode.num 106).number (by decide), (data_made _ _).2 h]; rfl
  · intro d
    have h := (data_made d _).1 rfl
    cases hx : (SchemItem.bytes d).instruction with
    | error e => rw [hx] at h; exact ⟨_, .data h⟩
    | ok i => rw [hx] at h; exact ⟨_, .script h⟩

theorem be_length (w n : Nat) : (be w n).length = w := by
  unfold be
  rw [List.length_reverse]
  induction w generalizing n with
  | zero => rfl
  | succ w ih => simp [le, ih]

theorem sec_push {k : PublicKey} {b : Bytes} (h : SecWritten k (.ok b)) : ∃ j, PushMade b (.ok j) := by
  have hl : 1 ≤ b.length ∧ b.length ≤ 75 := by
    cases h with
    | compressed => simp [be_length]
    | long => simp [be_length]
  exact ⟨_, .push (op := ⟨b.length, by omega⟩) hl.1 (.inl ⟨hl.2, rfl⟩)⟩

/-- C121. The script that spends the output of an address. -/
theorem C121_pubkey_in (k : PublicKey) (d : Data) (r : Except Err Script) :
    PayToPubkeyIn.create k d = r ↔ PubkeyInMade k d r := by
  refine graph (f := fun k => PayToPubkeyIn.create k d) (R := fun k r => PubkeyInMade k d r) ?_ ?_ k r
  · intro k r h
    unfold PayToPubkeyIn.create ofSchematic
    cases h with
    | key h => rw [(C119_public _ _).2 h]
    | signature h h' => rw [(C119_public _ _).2 h]; simp only [toInstructions, (data_made _ _).2 h']
    | script h h' h'' => rw [(C119_public _ _).2 h]; simp only [toInstructions, (data_made _ _).2 h', (push_made _ _).2 h'']
  · intro k
    have h := (C119_public k _).1 rfl
    cases hx : k.toBytes with
    | error e => rw [hx] at h; exact ⟨_, .key h⟩
    | ok b =>
      rw [hx] at h
      have h' := (data_made d _).1 rfl
      cases hy : (SchemItem.bytes d).instruction with
      | error e => rw [hy] at h'; exact ⟨_, .signature h h'⟩
      | ok i =>
        rw [hy] at h'
        obtain ⟨j, hj⟩ := sec_push h
        exact ⟨_, .script h h' hj⟩

/-- C121. The script that spends the output of a script. -/
theorem C121_script_in (s : Script) (ds : List Data) (r : Except Err Script) :
    PayToScriptIn.create s ds = r ↔ ScriptInMade s ds r := by
  have hl : ∀ b : Bytes, (([SchemItem.opcode (.num 0)] ++ ds.map SchemItem.bytes ++ [.bytes ⟨.str, b⟩]) : List SchemItem) =
      .opcode (.num 0) :: (ds ++ [(⟨.str, b⟩ : Data)]).map SchemItem.bytes := by intro b; simp
  refine graph (f := fun s => PayToScriptIn.create s ds) (R := fun s r => ScriptInMade s ds r) ?_ ?_ s r
  · intro s r h
    unfold PayToScriptIn.create ofSchematic
    cases h with
    | redeem h => rw [(C119_script _ _).2 h]
    | pushes h h' =>
      rw [(C119_script _ _).2 h]
      simp only [hl, toInstructions, plain_opcode (Opcode.num 0).number (by decide), (datas_made _ _).2 h']
    | script h h' =>
      rw [(C119_script _ _).2 h]
      simp only [hl, toInstructions, plain_opcode (Opcode.num 0).number (by decide), (datas_made _ _).2 h']
      rfl
  · intro s
    have h := (C119_script s _).1 rfl
    cases hx : s.toBytes with
    | error e => rw [hx] at h; exact ⟨_, .redeem h⟩
    | ok b =>
      rw [hx] at h
      have h' := (datas_made (ds ++ [⟨.str, b⟩]) _).1 rfl
      cases hy : toInstructions ((ds ++ [(⟨.str, b⟩ : Data)]).map SchemItem.bytes) with
      | error e => rw [hy] at h'; exact ⟨_, .pushes h h'⟩
      | ok i => rw [hy] at h'; exact ⟨_, .script h h'⟩

theorem small_plain {n : Int} {o : Opcode} (h : SmallMade n (.ok o)) : (SchemItem.opcode o).instruction = .ok ⟨o, none⟩ := by
  have key : ∀ b : Byte, b.val = 0 ∨ 81 ≤ b.val ∧ b.val ≤ 96 → pushKind b = .plain := by decide +kernel
  cases h with
  | zero => exact plain_opcode _ (by decide)
  | @small b h1 h2 h3 => exact plain_opcode _ (key b (.inr ⟨by omega, by omega⟩))

/-- C121. The script of several keys. -/
theorem C121_multisig (ks : List PublicKey) (m : Int) (r : Except Err Script) :
    RedeemMultisig.create ks m = r ↔ MultisigMade ks m r := by
  have app : ∀ (l l' : List SchemItem) (is js : List Instruction), toInstructions l = .ok is → toInstructions l' = .ok js →
      toInstructions (l ++ l') = .ok (is ++ js) := by
    intro l
    induction l with
    | nil => rintro l' is js h h'; cases h; exact h'
    | cons x l ih =>
      intro l' is js h h'
      obtain ⟨i, is', h1, h2, rfl⟩ := (toInstructions_cons x l is).1 h
      simp only [List.cons_append, toInstructions, h1, ih l' is' js h2 h']
  refine graph (f := fun ks => RedeemMultisig.create ks m) (R := fun ks r => MultisigMade ks m r) ?_ ?_ ks r
  · intro ks r h
    unfold RedeemMultisig.create
    cases h with
    | number h => rw [(small_made _ _).2 h]; rfl
    | key h h' => rw [(small_made _ _).2 h, (mapM_each C119_public _ _).2 h']; rfl
    | count h h' h'' => rw [(small_made _ _).2 h, (mapM_each C119_public _ _).2 h', (small_made _ _).2 h'']; rfl
    | @script o bs p is h h' h'' h3 =>
      rw [(small_made _ _).2 h, (mapM_each C119_public _ _).2 h', (small_made _ _).2 h'']
      have e := app _ [.opcode p, .opcode (.num 174)] is [⟨p, none⟩, ⟨⟨0xae⟩, none⟩] ((pushes_made bs _).2 h3) (by
        simp only [toInstructions, small_plain h'', plain_opcode (Opcode.num 174).number (by decide)]
        rfl)
      show ofSchematic _ _ = _
      unfold ofSchematic
      simp only [List.append_assoc, List.singleton_append, List.cons_append, List.nil_append, toInstructions, small_plain h, e]
  · intro ks
    have h := (small_made m _).1 rfl
    cases hx : Opcode.forNumber m with
    | error e => rw [hx] at h; exact ⟨_, .number h⟩
    | ok o =>
      rw [hx] at h
      have h' := (mapM_each C119_public ks _).1 rfl
      cases hy : ks.mapM PublicKey.toBytes with
      | error e => rw [hy] at h'; exact ⟨_, .key h h'⟩
      | ok bs =>
        rw [hy] at h'
        have h'' := (small_made ks.length _).1 rfl
        cases hz : Opcode.forNumber ks.length with
        | error e => rw [hz] at h''; exact ⟨_, .count h h' h''⟩
        | ok p =>
          rw [hz] at h''
          have : ∃ is, EachMade PushMade bs (.ok is) := by
            clear h h'' hx hy hz
            generalize hr : (Except.ok bs : Except Err (List Bytes)) = r at h'
            induction h' generalizing bs with
            | nil => cases hr; exact ⟨_, .nil⟩
            | here => cases hr
            | later => cases hr
            | next h _ ih =>
              cases hr
              obtain ⟨j, hj⟩ := sec_push h
              obtain ⟨is, his⟩ := ih _ rfl
              exact ⟨_, .next hj his⟩
          obtain ⟨is, his⟩ := this
          exact ⟨_, .script h h' h'' his⟩

/-! ## Inputs and outputs -/

theorem made_of {α β : Type} {R : Except Err α → Prop} {x : Except Err α} {y : Except Err β} (g : α → β)
    (hx : ∀ r, x = r ↔ R r) (hy : y = x.map g) (r : Except Err β) : y = r ↔ MadeOf g R r := by
  subst hy
  constructor
  · rintro rfl
    cases h : x with
    | error e => exact .error ((hx _).1 h)
    | ok a => exact .made ((hx _).1 h)
  · intro h
    cases h with
    | error h => rw [(hx _).2 h]; rfl
    | made h => rw [(hx _).2 h]; rfl

/-- C121. The outputs. -/
theorem C121_outputs (H : Hashes) (v : Int) (r : Except Err Output) :
    (∀ a, AddressOutput.create v a = r ↔ MadeOf (fun s => ⟨.address, v, s⟩) (PubkeyOutMade a) r) ∧
    (∀ s, ScriptOutput.create H v s = r ↔ MadeOf (fun s => ⟨.script, v, s⟩) (ScriptOutMade H s) r) ∧
    (∀ ks m, MultisigOutput.create v ks m = r ↔ MadeOf (fun s => ⟨.multisig, v, s⟩) (MultisigMade ks m) r) ∧
    (∀ d, DataOutput.create d = r ↔ DataOutputMade d r) := by
  refine ⟨fun a => made_of _ (C121_pubkey_out a) ?_ r, fun s => made_of _ (C121_script_out H s) ?_ r,
    fun ks m => made_of _ (C121_multisig ks m) ?_ r, fun d => ?_⟩
  · unfold AddressOutput.create; cases PayToPubkeyOut.create a <;> rfl
  · unfold ScriptOutput.create; cases PayToScriptOut.create H s <;> rfl
  · unfold MultisigOutput.create; cases RedeemMultisig.create ks m <;> rfl
  · refine graph (R := DataOutputMade) ?_ ?_ d r
    · intro d r h
      unfold DataOutput.create
      cases h with
      | long h => rw [if_pos h]
      | script h h' => rw [if_neg (by omega), (C121_return _ _).2 h']
      | output h h' => rw [if_neg (by omega), (C121_return _ _).2 h']
    · intro d
      by_cases hl : 80 < d.val.length
      · exact ⟨_, .long hl⟩
      have h := (C121_return d _).1 rfl
      cases hx : OpReturnOut.create d with
      | error e => rw [hx] at h; exact ⟨_, .script (by omega) h⟩
      | ok s => rw [hx] at h; exact ⟨_, .output (by omega) h⟩

/-- C121. The inputs. -/
theorem C121_inputs (id : Text) (ix seq : Int) (r : Except Err Input) :
    (∀ a, AddressInput.create id ix a seq = r ↔ MadeOf (fun s => ⟨.address, id, ix, s, seq⟩) (PubkeyOutMade a) r) ∧
    (∀ s, ScriptInput.create id ix s seq = ⟨.script, id, ix, s, seq⟩) ∧
    (∀ ks m, MultisigInput.create id ix ks m seq = r ↔ MadeOf (fun s => ⟨.multisig, id, ix, s, seq⟩) (MultisigMade ks m) r) := by
  refine ⟨fun a => made_of _ (C121_pubkey_out a) ?_ r, fun s => rfl, fun ks m => made_of _ (C121_multisig ks m) ?_ r⟩
  · unfold AddressInput.create; cases PayToPubkeyOut.create a <;> rfl
  · unfold MultisigInput.create; cases RedeemMultisig.create ks m <;> rfl

/-! ## can_sign -/

theorem ownKey_address (H : Hashes) (k : PrivateKey) (hk : k.Good) : ∃ b a, OwnKey k b ∧ k.toAddress H = .ok a ∧
    a.phash = H.ripemd160 (H.sha256 b) := by
  obtain ⟨q, b, hq, hb, ho, -⟩ := ownKey_public k hk
  have hm : PrivateKey.make k.secret (.network k.network) k.compressed = .ok k := by
    rw [make_network, if_pos ⟨hk.1, hk.2⟩]
  obtain ⟨q', b', hq', hb', ha⟩ := C20_address H _ _ _ _ hm
  rw [hq] at hq'; cases hq'
  rw [hb] at hb'; cases hb'
  exact ⟨b, _, ho, ha, rfl⟩

/-- C121. What `can_sign` of an AddressInput says, for every input and list of keys. -/
theorem C121_address_can_sign (H : Hashes) (x : Input) (ks : List PrivateKey) (hk : ∀ k ∈ ks, k.Good) (r : Except Err Bool) :
    AddressInput.canSign H x ks = r ↔ AddressSays H x ks r := by
  have sound : ∀ r, AddressSays H x ks r → AddressInput.canSign H x ks = r := by
    intro r h
    have one : ∀ k, ks = [k] → ∃ b a, OwnKey k b ∧ k.toAddress H = .ok a ∧ a.phash = H.ripemd160 (H.sha256 b) :=
      fun k e => ownKey_address H k (hk k (by rw [e]; simp))
    unfold AddressInput.canSign
    cases h with
    | count h =>
      match ks, h with
      | [], _ => rfl
      | _ :: _ :: _, _ => rfl
    | method e h =>
      obtain ⟨b, a, -, ha, -⟩ := one _ e
      subst e
      simp only [ha, if_neg h]
    | index e h h' =>
      obtain ⟨b, a, -, ha, -⟩ := one _ e
      subst e
      simp only [ha, if_pos h, PayToPubkeyOut.getAddressHash, dataAt, List.getElem?_eq_none (show x.script.instructions.length ≤ 2 by omega)]
    | @yes k b i j l rest d e h h' ho hd hv =>
      obtain ⟨b', a, ho', ha, hp⟩ := one _ e
      cases ownKey_unique ho ho'
      subst e
      have hg : PayToPubkeyOut.getAddressHash x.script = .ok l.data := by
        simp [PayToPubkeyOut.getAddressHash, dataAt, h']
      simp only [ha, if_pos h, hg, hd, Option.map_some, hv, hp, beq_self_eq_true]
    | @no k b i j l rest e h h' ho hd =>
      obtain ⟨b', a, ho', ha, hp⟩ := one _ e
      cases ownKey_unique ho ho'
      subst e
      have hg : PayToPubkeyOut.getAddressHash x.script = .ok l.data := by
        simp [PayToPubkeyOut.getAddressHash, dataAt, h']
      simp only [ha, if_pos h, hg, hp, Except.ok.injEq]
      rw [beq_eq_false_iff_ne]
      intro e
      cases hl : l.data with
      | none => rw [hl] at e; cases e
      | some d =>
        rw [hl] at e
        exact hd d hl (by simpa using e.symm)
  refine ⟨?_, sound r⟩
  rintro rfl
  have : ∃ r, AddressSays H x ks r := by
    match ks, hk with
    | [], _ => exact ⟨_, .count (by simp)⟩
    | _ :: _ :: _, _ => exact ⟨_, .count (by simp)⟩
    | [k], hk =>
      by_cases hc : x.script.cls = .payToPubkeyOut
      swap
      · exact ⟨_, .method rfl hc⟩
      match hi : x.script.instructions with
      | [] => exact ⟨_, .index rfl hc (by simp [hi])⟩
      | [_] => exact ⟨_, .index rfl hc (by simp [hi])⟩
      | [_, _] => exact ⟨_, .index rfl hc (by simp [hi])⟩
      | i :: j :: l :: rest =>
        obtain ⟨b, -, ho, -⟩ := ownKey_address H k (hk k (by simp))
        by_cases hd : ∃ d, l.data = some d ∧ d.val = H.ripemd160 (H.sha256 b)
        · obtain ⟨d, h1, h2⟩ := hd
          exact ⟨_, .yes rfl hc hi ho h1 h2⟩
        · exact ⟨_, .no rfl hc hi ho fun d h1 h2 => hd ⟨d, h1, h2⟩⟩
  obtain ⟨r, hr⟩ := this
  rwa [sound r hr]

theorem small_read (b : Byte) (r : Except Err Int) : (Opcode.mk b).numberValue = r ↔ SmallRead b r := by
  refine graph (f := fun b => (Opcode.mk b).numberValue) ?_ ?_ b r
  · intro b r h
    have hz : (Opcode.mk b = Opcode.num 0) ↔ b.val = 0 := by
      constructor
      · intro h; exact congrArg (fun o : Opcode => o.number.val) h
      · intro h; exact congrArg Opcode.mk (Fin.ext h)
    have hn : (Opcode.mk b).isNumber = true ↔ b.val = 0 ∨ 81 ≤ b.val ∧ b.val ≤ 96 := by
      unfold Opcode.isNumber
      simp only [Bool.or_eq_true, Bool.and_eq_true, decide_eq_true_eq, hz]
    unfold Opcode.numberValue
    cases h with
    | none h0 h1 h2 =>
      rw [if_pos (by rw [hn]; omega)]
      obtain ⟨t, ht, -⟩ := name_named b h2
      unfold Opcode.mention
      rw [ht]
    | nameless h0 h1 h2 =>
      rw [if_pos (by rw [hn]; omega)]
      unfold Opcode.mention
      rw [name_unnamed b h2]
    | zero h => rw [if_neg (by rw [hn]; omega), if_pos (hz.2 h)]
    | small h1 h2 =>
      rw [if_neg (by rw [hn]; omega), if_neg (by rw [hz]; omega)]
      congr 1
      show (b.val : Int) - 81 + 1 = _
      omega
  · intro b
    by_cases h0 : b.val = 0
    · exact ⟨_, .zero h0⟩
    by_cases h1 : 81 ≤ b.val ∧ b.val ≤ 96
    · exact ⟨_, .small h1.1 h1.2⟩
    by_cases h2 : Named b
    · exact ⟨_, .none h0 (by omega) h2⟩
    · exact ⟨_, .nameless h0 (by omega) h2⟩

theorem key_read (i : Instruction) (r : Except Err PublicKey) : publicKeyOf i.data = r ↔ KeyRead i r := by
  obtain ⟨o, d⟩ := i
  match d with
  | none =>
    constructor
    · rintro rfl; exact .none
    · intro h; cases h; rfl
  | some ⟨.bytearray, b⟩ =>
    have e : publicKeyOf (some ⟨.bytearray, b⟩) = .error .pubInvalidBinary := C19_bytearray b _
    simp only [e]
    constructor
    · rintro rfl; exact .kind
    · intro h; cases h; rfl
  | some ⟨.str, b⟩ =>
    show PublicKey.fromBytes ⟨.str, b⟩ (.network .livenet) = r ↔ _
    rw [C118_public_bytes]
    constructor
    · exact .key
    · intro h; cases h; assumption

theorem among_iff (qs : List PublicKey) (k : PrivateKey) (hk : k.Good) :
    Among qs k ↔ ∃ p, k.toPublicKey = .ok p ∧ p ∈ qs := by
  have hm : PrivateKey.make k.secret (.network k.network) k.compressed = .ok k := by
    rw [make_network, if_pos ⟨hk.1, hk.2⟩]
  obtain ⟨x, y, hq, hx, hy, hon, hP⟩ := C20_public_key _ _ _ _ hm
  rw [hq]
  simp only [Except.ok.injEq, exists_eq_left']
  constructor
  · rintro ⟨⟨⟨x', y'⟩, n, c⟩, hm, h1, h2, hx', hy', hP'⟩
    simp only at *
    cases isPoint_x_unique hP hP' hx hx'
    cases isPoint_y_unique hP hP' hy hy'
    rw [← h1, ← h2]
    exact hm
  · intro h
    exact ⟨_, h, rfl, rfl, hx, hy, hP⟩

/-- C121. What `can_sign` of a MultisigInput says, for every input and list of keys. -/
theorem C121_multisig_can_sign (x : Input) (ks : List PrivateKey) (hk : ∀ k ∈ ks, k.Good) (r : Except Err Bool) :
    MultisigInput.canSign x ks = r ↔ MultisigSays x ks r := by
  have mid : ∀ (i : Instruction) (rest : List Instruction), x.script.instructions = i :: rest →
      ((x.script.instructions.take (x.script.instructions.length - 2)).drop 1) = rest.take (rest.length - 2) := by
    intro i rest h
    rw [h]
    match rest with
    | [] => rfl
    | [_] => rfl
    | _ :: _ :: rest =>
      simp only [List.length_cons, Nat.add_sub_cancel]
      rw [show rest.length + 1 + 1 + 1 - 2 = rest.length + 1 by omega, List.take_succ_cons]
      rfl
  have num : ∀ (i : Instruction) (rest : List Instruction) r, x.script.instructions = i :: rest → SmallRead i.opcode.number r →
      RedeemMultisig.getMinSignatures x.script = r := by
    intro i rest r h h'
    simp only [RedeemMultisig.getMinSignatures, h, List.getElem?_cons_zero]
    exact (small_read _ _).2 h'
  have keys : ∀ (i : Instruction) (rest : List Instruction) r, x.script.instructions = i :: rest →
      (EachMade KeyRead (rest.take (rest.length - 2)) r ↔ RedeemMultisig.getPublicKeys x.script = r) := by
    intro i rest r h
    unfold RedeemMultisig.getPublicKeys
    rw [mid i rest h]
    exact (mapM_each key_read _ _).symm
  have all : ∀ qs, ∃ r, MultisigInput.allExpected qs ks = .ok r ∧ (r = true ↔ ∀ k ∈ ks, Among qs k) := by
    intro qs
    obtain ⟨r, h1, h2⟩ := allExpected_spec qs ks hk
    refine ⟨r, h1, h2.trans ?_⟩
    constructor
    · intro h k hm; exact (among_iff qs k (hk k hm)).2 (h k hm)
    · intro h k hm; exact (among_iff qs k (hk k hm)).1 (h k hm)
  have sound : ∀ r, MultisigSays x ks r → MultisigInput.canSign x ks = r := by
    intro r h
    unfold MultisigInput.canSign
    cases h with
    | method h => rw [if_neg h]
    | index h h' => rw [if_pos h]; simp only [RedeemMultisig.getMinSignatures, h', List.getElem?_nil]
    | number h h' h'' => rw [if_pos h, num _ _ _ h' h'']
    | count h h' h'' n => rw [if_pos h, num _ _ _ h' h'']; simp only []; rw [if_pos n]
    | key h h' h'' n g => rw [if_pos h, num _ _ _ h' h'']; simp only []; rw [if_neg (by omega), (keys _ _ _ h').1 g]
    | yes h h' h'' n g a =>
      rw [if_pos h, num _ _ _ h' h'']; simp only []; rw [if_neg (by omega), (keys _ _ _ h').1 g]
      obtain ⟨r, h1, h2⟩ := all _
      simp only []
      rw [h1, h2.2 a]
    | no h h' h'' n g a =>
      rw [if_pos h, num _ _ _ h' h'']; simp only []; rw [if_neg (by omega), (keys _ _ _ h').1 g]
      obtain ⟨r, h1, h2⟩ := all _
      simp only []
      rw [h1]
      cases r with
      | false => rfl
      | true => exact absurd (h2.1 rfl) a
  refine ⟨?_, sound r⟩
  rintro rfl
  have : ∃ r, MultisigSays x ks r := by
    by_cases hc : x.script.cls = .redeemMultisig
    swap
    · exact ⟨_, .method hc⟩
    match hi : x.script.instructions with
    | [] => exact ⟨_, .index hc hi⟩
    | i :: rest =>
      have hn := (small_read i.opcode.number _).1 rfl
      cases hm : (Opcode.mk i.opcode.number).numberValue with
      | error e => rw [hm] at hn; exact ⟨_, .number hc hi hn⟩
      | ok m =>
        rw [hm] at hn
        by_cases hl : (ks.length : Int) = m
        swap
        · exact ⟨_, .count hc hi hn hl⟩
        have hq := (keys i rest _ hi).2 rfl
        cases hr : RedeemMultisig.getPublicKeys x.script with
        | error e => rw [hr] at hq; exact ⟨_, .key hc hi hn hl hq⟩
        | ok qs =>
          rw [hr] at hq
          by_cases ha : ∀ k ∈ ks, Among qs k
          · exact ⟨_, .yes hc hi hn hl hq ha⟩
          · exact ⟨_, .no hc hi hn hl hq ha⟩
  obtain ⟨r, hr⟩ := this
  rwa [sound r hr]

/-! ## Examples -/

/-- Seventeen signatures and no keys. -/
example (ks : List PublicKey) : RedeemMultisig.create ks 17 = .error .valueError :=
  (C121_multisig _ _ _).2 (.number (.outside (.inr (by decide))))

/-- Neither a number of signatures above the number of keys nor a script without keys is refused. -/
example : RedeemMultisig.create [] 16 = .ok ⟨.redeemMultisig, [⟨⟨96⟩, none⟩, ⟨⟨0⟩, none⟩, ⟨⟨0xae⟩, none⟩]⟩ :=
  (C121_multisig _ _ _).2 (.script (is := []) (.small (by decide) (by decide) (by decide)) .nil (.zero rfl) .nil)

/-- A key with a coordinate that does not fit, among too many keys: the key is found first. -/
example (ks : List PublicKey) (hl : 16 < ks.length) :
    MultisigOutput.create 5 (⟨(2 ^ 256, 0), .livenet, true⟩ :: ks) 2 = .error .valueError :=
  ((C121_outputs .toy 5 _).2.2.1 _ _).2 (.error (.key (.small (b := 82) (by decide) (by decide) (by decide)) (.here (.wide (.inl (le_refl _))))))

/-- Data of 80 bytes make an output, a `bytearray` does not. -/
example (b : Bytes) (h : b.length = 80) :
    DataOutput.create ⟨.str, b⟩ = .ok ⟨.data, 0, ⟨.opReturnOut, [⟨⟨0x6a⟩, none⟩, ⟨⟨76⟩, some ⟨.str, b⟩⟩]⟩⟩ ∧
    DataOutput.create ⟨.bytearray, b⟩ = .error .typeError := by
  constructor
  · exact ((C121_outputs .toy 0 _).2.2.2 _).2 (.output (by simp [h]) (.script (.str rfl (.push (by simp [h])
      (.inr (.inl ⟨by simp [h], by simp [h], rfl⟩))))))
  · exact ((C121_outputs .toy 0 _).2.2.2 _).2 (.script (by simp [h]) (.data (.kind rfl)))

/-- An AddressInput that was read from a transaction cannot tell whether a key signs it. -/
example (x : Input) (k : PrivateKey) (hk : k.Good) (hx : x.script.cls = .payToPubkeyIn) :
    AddressInput.canSign .toy x [k] = .error .attributeError :=
  (C121_address_can_sign _ _ _ (by simpa using hk) _).2 (.method rfl (by rw [hx]; simp))

/-- A MultisigInput whose script was read from bytes: its keys are `bytearray`s. -/
example (x : Input) (k : PrivateKey) (b : Bytes) (hk : k.Good) (hx : x.script = ⟨.redeemMultisig,
    [⟨⟨81⟩, none⟩, ⟨⟨33⟩, some ⟨.bytearray, b⟩⟩, ⟨⟨81⟩, none⟩, ⟨⟨174⟩, none⟩]⟩) :
    MultisigInput.canSign x [k] = .error .pubInvalidBinary :=
  (C121_multisig_can_sign _ _ (by simpa using hk) _).2 (.key (i := ⟨⟨81⟩, none⟩)
    (rest := [⟨⟨33⟩, some ⟨.bytearray, b⟩⟩, ⟨⟨81⟩, none⟩, ⟨⟨174⟩, none⟩]) (by rw [hx]) (by rw [hx])
    (.small (by decide) (by decide)) rfl (.here KeyRead.kind))

end Bitforge
