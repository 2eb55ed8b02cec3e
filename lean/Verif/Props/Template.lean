import Verif.Props.Script

/-! # C32: script templates -/

namespace Bitforge
open Spec

/-- `subcls.is_valid(script)` for each member of `SCRIPT_SUBCLASSES`. -/
def isValidFor (t : Template) (s : List StructItem) : Except Err Bool := match t with
  | .p2pkhIn => .ok (PayToPubkeyIn.isValid s)
  | .p2pkhOut => .ok (PayToPubkeyOut.isValid s)
  | .p2shIn => .ok (PayToScriptIn.isValid s)
  | .p2shOut => .ok (PayToScriptOut.isValid s)
  | .nullData => .ok (OpReturnOut.isValid s)
  | .multisig => RedeemMultisig.isValid s

/-- C32. Each `is_valid` accepts exactly the scripts of its template. -/
theorem C32_is_valid (t : Template) (is : List Instruction) :
    isValidFor t (getStructure is) = .ok true ↔ Matches t (shape (is.map Instruction.wire)) := by
  rw [getStructure_eq]
  generalize shape (is.map Instruction.wire) = s
  cases t <;> simp only [isValidFor, Except.ok.injEq]
  · exact p2pkhIn_iff s
  · exact p2pkhOut_iff s
  · exact p2shIn_iff s
  · exact p2shOut_iff s
  · exact nullData_iff s
  · rcases redeem_spec s with ⟨hl, hc, he⟩ | ⟨hn, r, hr, hm⟩
    · rw [he]
      simp only [reduceCtorEq, false_iff]
      rintro ⟨m, n, k, hk, _, _, rfl⟩
      rcases hc with hc | ⟨_, hc⟩
      · simp at hc
      · rw [show (some m :: (List.replicate k none ++ [some n, some 174])).length - 2 = k + 1 by simp,
          List.getElem?_cons_succ, List.getElem?_append_right (by simp)] at hc
        simp at hc
    · rw [hr]; simp only [Except.ok.injEq]; exact hm

/-- C32. No script matches two templates. -/
theorem C32_exclusive (t t' : Template) (is : List Instruction)
    (h : isValidFor t (getStructure is) = .ok true) (h' : isValidFor t' (getStructure is) = .ok true) : t = t' := by
  rw [C32_is_valid] at h h'
  exact matches_exclusive h h'

/-- C32. When `classify` returns, its answer is exact. -/
theorem C32_classify_exact (is : List Instruction) (c : ScriptClass) (h : Script.classify is = .ok c) (t : Template) :
    c.template = some t ↔ Matches t (shape (is.map Instruction.wire)) := by
  rcases classify_spec is with ⟨_, he⟩ | ⟨_, c', he, hm⟩
  · rw [he] at h; cases h
  · rw [he] at h; cases h; exact hm t

/-- C32. … and it returns for every script that matches a template. -/
theorem C32_classify_complete (is : List Instruction) (t : Template)
    (h : Matches t (shape (is.map Instruction.wire))) :
    ∃ c, Script.classify is = .ok c ∧ c.template = some t := by
  rcases classify_spec is with ⟨hc, _⟩ | ⟨_, c', he, hm⟩
  · exfalso
    obtain ⟨hl, hn, hc⟩ := hc
    have hv := (C32_is_valid t is).2 h
    cases t <;> simp only [Matches] at h
    · rw [h] at hl; simp at hl
    · rw [h] at hc; simp [smallNumber] at hc
    · exact hn h
    · rw [h] at hl; simp at hl
    · rw [h] at hl; simp at hl
    · rw [getStructure_eq] at hv
      simp only [isValidFor] at hv
      rcases redeem_spec (shape (is.map Instruction.wire)) with ⟨_, _, he⟩ | ⟨hn, _⟩
      · rw [he] at hv; cases hv
      · exact hn ⟨hl, hc⟩
  · exact ⟨c', he, (hm t).2 h⟩

/-! ## Schematics -/

theorem instruction_bytes_ok (d : Data) (i : Instruction) (h : (SchemItem.bytes d).instruction = .ok i) :
    d.kind = .str ∧ i.data = some d ∧ pushKind i.opcode.number ≠ .plain ∧ Wf i.wire := by
  obtain ⟨k, b⟩ := d
  cases k with
  | bytearray => cases h
  | str =>
    simp only [SchemItem.instruction, bind, Except.bind] at h
    split at h
    · cases h
    · next o ho =>
      rw [instr_make_ok_iff] at h
      obtain ⟨rfl, hw⟩ := h
      refine ⟨rfl, rfl, ?_, hw⟩
      intro hk
      simp [Instruction.wire, Wf, hk] at hw

theorem instruction_bytes (b : Bytes) (h : 1 ≤ b.length) (h' : b.length < 2 ^ 32) :
    ∃ i, (SchemItem.bytes ⟨.str, b⟩).instruction = .ok i := by
  obtain ⟨o, ho, hi⟩ := C27_push_for ⟨.str, b⟩ h h'
  refine ⟨⟨o, some ⟨.str, b⟩⟩, ?_⟩
  simp only [SchemItem.instruction, bind, Except.bind]
  simp only [Instruction.pushFor, ho] at hi
  simp only [ho]
  exact hi

theorem instruction_opcode (o : Opcode) (h : pushKind o.number = .plain) :
    (SchemItem.opcode o).instruction = .ok ⟨o, none⟩ := by
  simp only [SchemItem.instruction, instr_make, h]

theorem toInstructions_cons (x : SchemItem) (l : List SchemItem) (is : List Instruction) :
    toInstructions (x :: l) = .ok is ↔
      ∃ i js, x.instruction = .ok i ∧ toInstructions l = .ok js ∧ is = i :: js := by
  simp only [toInstructions]
  cases x.instruction with
  | error e => simp
  | ok i =>
    cases toInstructions l with
    | error e => simp
    | ok js => simp [eq_comm]

theorem toInstructions_append (l m : List SchemItem) (is : List Instruction) :
    toInstructions (l ++ m) = .ok is ↔
      ∃ js ks, toInstructions l = .ok js ∧ toInstructions m = .ok ks ∧ is = js ++ ks := by
  induction l generalizing is with
  | nil => simp [toInstructions]
  | cons x l ih =>
    rw [List.cons_append, toInstructions_cons]
    simp only [ih, toInstructions_cons]
    constructor
    · rintro ⟨i, js, h1, ⟨a, b, h2, h3, rfl⟩, rfl⟩
      exact ⟨i :: a, b, ⟨i, a, h1, h2, rfl⟩, h3, rfl⟩
    · rintro ⟨a, b, ⟨i, js, h1, h2, rfl⟩, h3, rfl⟩
      exact ⟨i, js ++ b, h1, ⟨js, b, h2, h3, rfl⟩, rfl⟩

theorem toInstructions_nil (is : List Instruction) : toInstructions [] = .ok is ↔ is = [] := by
  simp [toInstructions, eq_comm]

theorem toInstructions_pushes (ds : List Data) (is : List Instruction) (h : toInstructions (ds.map .bytes) = .ok is) :
    is.map (·.data) = ds.map some ∧ shape (is.map Instruction.wire) = List.replicate ds.length none ∧
      ∀ i ∈ is, Wf i.wire := by
  induction ds generalizing is with
  | nil => simp [toInstructions] at h; subst h; simp [shape]
  | cons d ds ih =>
    rw [List.map_cons, toInstructions_cons] at h
    obtain ⟨i, js, h1, h2, rfl⟩ := h
    obtain ⟨_, hd, hp, hw⟩ := instruction_bytes_ok d i h1
    obtain ⟨g1, g2, g3⟩ := ih js h2
    refine ⟨by simp [hd, g1], ?_, ?_⟩
    · simp only [shape, List.map_cons, List.length_cons, List.replicate_succ] at g2 ⊢
      rw [g2]
      simp [Instruction.wire, hp]
    · intro j hj
      rcases List.mem_cons.1 hj with rfl | hj
      · exact hw
      · exact g3 j hj

theorem toInstructions_pushes_ok (bs : List Bytes) (h : ∀ b ∈ bs, 1 ≤ b.length ∧ b.length < 2 ^ 32) :
    ∃ is, toInstructions (bs.map fun b => .bytes ⟨.str, b⟩) = .ok is := by
  induction bs with
  | nil => exact ⟨[], rfl⟩
  | cons b bs ih =>
    obtain ⟨i, hi⟩ := instruction_bytes b (h b (by simp)).1 (h b (by simp)).2
    obtain ⟨is, his⟩ := ih fun x hx => h x (by simp [hx])
    exact ⟨i :: is, by rw [List.map_cons, toInstructions_cons]; exact ⟨i, is, hi, his, rfl⟩⟩

theorem ofSchematic_ok (c : ScriptClass) (l : List SchemItem) (s : Script) (h : ofSchematic c l = .ok s) :
    s.cls = c ∧ toInstructions l = .ok s.instructions := by
  unfold ofSchematic at h
  split at h
  · cases h
  · next his => cases h; exact ⟨rfl, his⟩

theorem template_inj {c c' : ScriptClass} {t : Template} (h : c.template = some t) (h' : c'.template = some t) :
    c = c' := by
  have h := h.trans h'.symm
  cases c <;> cases c' <;> first | rfl | cases h

theorem classify_of_shape (is : List Instruction) (c : ScriptClass) (t : Template) (ht : c.template = some t)
    (h : Matches t (shape (is.map Instruction.wire))) : Script.classify is = .ok c := by
  obtain ⟨c', hc, hc'⟩ := C32_classify_complete is t h
  rw [hc, template_inj hc' ht]

theorem shape_cons_plain (o : Opcode) (is : List Instruction) (h : pushKind o.number = .plain) :
    shape ((⟨o, none⟩ :: is : List Instruction).map Instruction.wire) =
      some o.number :: shape (is.map Instruction.wire) := by
  simp [shape, Instruction.wire, h]

theorem shape_cons_push (i : Instruction) (is : List Instruction) (h : pushKind i.opcode.number ≠ .plain) :
    shape ((i :: is).map Instruction.wire) = none :: shape (is.map Instruction.wire) := by
  simp [shape, Instruction.wire, h]

theorem shape_append (is js : List Instruction) : shape ((is ++ js).map Instruction.wire) =
    shape (is.map Instruction.wire) ++ shape (js.map Instruction.wire) := by
  simp [shape]

/-! ## The templates -/

/-- A key that every serialisation round trip preserves: on the curve, coordinates reduced. -/
def PublicKey.Valid (k : PublicKey) : Prop := OnSecp k.pair.1 k.pair.2 ∧ reduced k.pair.1 ∧ reduced k.pair.2

theorem valid_bytes (k : PublicKey) (h : k.Valid) : ∃ b, k.toBytes = .ok b ∧
    b.length = (if k.compressed then 33 else 65) ∧
    PublicKey.fromBytes ⟨.str, b⟩ = .ok ⟨k.pair, .livenet, k.compressed⟩ := by
  obtain ⟨b, hb, hl, _⟩ := C18_bytes k h.1 h.2.1 h.2.2
  refine ⟨b, hb, hl, ?_⟩
  obtain ⟨b', hb', _, hk⟩ := C18_bytes ⟨k.pair, .livenet, k.compressed⟩ h.1 h.2.1 h.2.2
  have : b' = b := by
    have e : (PublicKey.mk k.pair .livenet k.compressed).toBytes = k.toBytes := rfl
    rw [e, hb] at hb'; exact (Except.ok.inj hb').symm
  rw [this] at hk; exact hk

/-- C32. `PayToPubkeyIn.create`: classified as such; the getters return the signature and the key (as a livenet key). -/
theorem C32_pubkey_in (k : PublicKey) (sig : Bytes) (hk : k.Valid) (h1 : 1 ≤ sig.length) (h2 : sig.length < 2 ^ 32) :
    ∃ s, PayToPubkeyIn.create k ⟨.str, sig⟩ = .ok s ∧ s.cls = .payToPubkeyIn ∧ s.WellFormed ∧
      Script.classify s.instructions = .ok .payToPubkeyIn ∧
      PayToPubkeyIn.getSignature s = .ok (some ⟨.str, sig⟩) ∧
      PayToPubkeyIn.getPublicKey s = .ok ⟨k.pair, .livenet, k.compressed⟩ := by
  obtain ⟨b, hb, hl, hf⟩ := valid_bytes k hk
  obtain ⟨i, hi⟩ := instruction_bytes sig h1 h2
  obtain ⟨j, hj⟩ := instruction_bytes b (by rw [hl]; split <;> omega) (by rw [hl]; split <;> omega)
  obtain ⟨_, di, pi, wi⟩ := instruction_bytes_ok _ i hi
  obtain ⟨_, dj, pj, wj⟩ := instruction_bytes_ok _ j hj
  have hto : toInstructions [.bytes ⟨.str, sig⟩, .bytes ⟨.str, b⟩] = .ok [i, j] := by
    simp [toInstructions, hi, hj]
  refine ⟨⟨.payToPubkeyIn, [i, j]⟩, ?_, rfl, ?_, ?_, ?_, ?_⟩
  · unfold PayToPubkeyIn.create; rw [hb]; simp only [ofSchematic, hto]
  · intro x hx
    simp only [List.mem_cons, List.not_mem_nil, or_false] at hx
    rcases hx with rfl | rfl <;> assumption
  · apply classify_of_shape _ _ .p2pkhIn rfl
    rw [shape_cons_push i _ pi, shape_cons_push j _ pj]; rfl
  · simp [PayToPubkeyIn.getSignature, dataAt, di]
  · simp only [PayToPubkeyIn.getPublicKey, dataAt, List.getElem?_cons_succ, List.getElem?_cons_zero, dj]
    exact hf

/-- C32. `PayToPubkeyOut.create`: total on addresses, classified as such, and the getter returns the key hash. -/
theorem C32_pubkey_out (a : Address) (ha : a.phash.length = 20) :
    ∃ s, PayToPubkeyOut.create a = .ok s ∧ s.cls = .payToPubkeyOut ∧
      Script.classify s.instructions = .ok .payToPubkeyOut ∧
      s.toBytes = .ok (118 :: 169 :: 20 :: (a.phash ++ [136, 172])) ∧
      PayToPubkeyOut.getAddressHash s = .ok (some ⟨.str, a.phash⟩) := by
  have hi : (SchemItem.bytes ⟨.str, a.phash⟩).instruction = .ok ⟨.num 20, some ⟨.str, a.phash⟩⟩ := by
    have hp : Opcode.pushFor ((20 : Nat) : Int) = .ok (.num 20) := by decide
    simp only [SchemItem.instruction, ha, hp]
    simp only [bind, Except.bind, instr_make, show pushKind (Opcode.num 20).number = .direct 20 by decide]
    rw [if_pos ha]
  have op : ∀ n : Nat, pushKind (Opcode.num n).number = .plain →
      (SchemItem.opcode (.num n)).instruction = .ok ⟨.num n, none⟩ := fun n h => instruction_opcode _ h
  refine ⟨⟨.payToPubkeyOut, [⟨.num 118, none⟩, ⟨.num 169, none⟩, ⟨.num 20, some ⟨.str, a.phash⟩⟩, ⟨.num 136, none⟩,
    ⟨.num 172, none⟩]⟩, ?_, rfl, ?_, ?_, rfl⟩
  · simp only [PayToPubkeyOut.create, ofSchematic, toInstructions, hi, op 118 (by decide), op 169 (by decide),
      op 136 (by decide), op 172 (by decide)]
  · exact classify_of_shape _ _ .p2pkhOut rfl rfl
  · simp only [Script.toBytes, Script.bytesOf]
    have t : ∀ n : Nat, pushKind (Opcode.num n).number = .plain → Instruction.toBytes ⟨.num n, none⟩ =
        .ok [(Opcode.num n).number] := by
      intro n h
      have hp := (pushKind_plain (Opcode.num n).number).2 h
      rw [push_split] at hp
      simp only [Bool.or_eq_false_iff] at hp
      simp only [Instruction.toBytes]
      rw [hp.1, hp.2]; rfl
    have t20 : Instruction.toBytes ⟨.num 20, some ⟨.str, a.phash⟩⟩ = .ok (20 :: a.phash) := rfl
    rw [t 118 (by decide), t 169 (by decide), t 136 (by decide), t 172 (by decide), t20]
    rfl

/-- C32. `PayToScriptIn.create` with at least one signature: classified as such; the getters return the signatures and
the parsed redeem script bytes. -/
theorem C32_script_in (r : Script) (sigs : List Bytes) (rb : Bytes) (hr : r.toBytes = .ok rb)
    (hrl : 1 ≤ rb.length ∧ rb.length < 2 ^ 32) (hs : ∀ b ∈ sigs, 1 ≤ b.length ∧ b.length < 2 ^ 32)
    (hne : sigs ≠ []) :
    ∃ s, PayToScriptIn.create r (sigs.map (⟨.str, ·⟩)) = .ok s ∧ s.cls = .payToScriptIn ∧ s.WellFormed ∧
      Script.classify s.instructions = .ok .payToScriptIn ∧
      PayToScriptIn.getSignatures s = sigs.map (some ⟨.str, ·⟩) ∧
      PayToScriptIn.getScript s = Script.fromBytes rb := by
  obtain ⟨is, his⟩ := toInstructions_pushes_ok sigs hs
  obtain ⟨j, hj⟩ := instruction_bytes rb hrl.1 hrl.2
  obtain ⟨_, dj, pj, wj⟩ := instruction_bytes_ok _ j hj
  have his' : toInstructions ((sigs.map (⟨.str, ·⟩) : List Data).map .bytes) = .ok is := by
    rw [List.map_map]; exact his
  obtain ⟨d, sh, wf⟩ := toInstructions_pushes _ is his'
  have hlen : is.length = sigs.length := by simpa using congrArg List.length d
  have hto : toInstructions ([.opcode (.num 0)] ++ (sigs.map (⟨.str, ·⟩) : List Data).map .bytes ++
      [.bytes ⟨.str, rb⟩]) = .ok (⟨.num 0, none⟩ :: (is ++ [j])) := by
    rw [toInstructions_append]
    refine ⟨⟨.num 0, none⟩ :: is, [j], ?_, ?_, by simp⟩
    · rw [toInstructions_append]
      refine ⟨[⟨.num 0, none⟩], is, ?_, his', rfl⟩
      simp [toInstructions, instruction_opcode (.num 0) (by decide)]
    · simp [toInstructions, hj]
  refine ⟨⟨.payToScriptIn, ⟨.num 0, none⟩ :: (is ++ [j])⟩, ?_, rfl, ?_, ?_, ?_, ?_⟩
  · unfold PayToScriptIn.create; rw [hr]; simp only [ofSchematic, hto]
  · intro x hx
    simp only [List.mem_cons, List.mem_append, List.not_mem_nil, or_false] at hx
    rcases hx with rfl | hx | rfl
    · decide
    · exact wf x hx
    · exact wj
  · apply classify_of_shape _ _ .p2shIn rfl
    refine ⟨sigs.length + 1, ?_, ?_⟩
    · have := List.length_pos_iff.2 hne; omega
    · rw [shape_cons_plain _ _ (by decide), shape_append, sh, shape_cons_push j [] pj, List.length_map,
        List.replicate_succ']
      rfl
  · simp only [PayToScriptIn.getSignatures, List.length_cons, List.length_append, List.length_nil]
    rw [show is.length + (0 + 1) + 1 - 1 = is.length + 1 by omega, List.take_succ_cons, List.take_left,
      List.drop_succ_cons, List.drop_zero, d, List.map_map]
    rfl
  · simp [PayToScriptIn.getScript, List.getLast?_cons, dj]

/-- C32. `PayToScriptOut.create`: total on scripts that serialise, classified as such; the getter returns the hash. -/
theorem C32_script_out (H : Hashes) (r : Script) (rb : Bytes) (hr : r.toBytes = .ok rb) :
    ∃ s, PayToScriptOut.create H r = .ok s ∧ s.cls = .payToScriptOut ∧
      Script.classify s.instructions = .ok .payToScriptOut ∧
      s.toBytes = .ok (169 :: 20 :: (H.ripemd160 (H.sha256 rb) ++ [135])) ∧
      PayToScriptOut.getScriptHash s = .ok (some ⟨.str, H.ripemd160 (H.sha256 rb)⟩) := by
  have hl := H.ripemd160_length (H.sha256 rb)
  have hi : (SchemItem.bytes ⟨.str, H.ripemd160 (H.sha256 rb)⟩).instruction =
      .ok ⟨.num 20, some ⟨.str, H.ripemd160 (H.sha256 rb)⟩⟩ := by
    have hp : Opcode.pushFor ((20 : Nat) : Int) = .ok (.num 20) := by decide
    simp only [SchemItem.instruction, hl, hp]
    simp only [bind, Except.bind, instr_make, show pushKind (Opcode.num 20).number = .direct 20 by decide]
    rw [if_pos hl]
  refine ⟨⟨.payToScriptOut, [⟨.num 169, none⟩, ⟨.num 20, some ⟨.str, H.ripemd160 (H.sha256 rb)⟩⟩, ⟨.num 135, none⟩]⟩,
    ?_, rfl, ?_, rfl, rfl⟩
  · simp only [PayToScriptOut.create, Script.toHash, hr, Except.map, ofSchematic, toInstructions, hi,
      instruction_opcode (.num 169) (by decide), instruction_opcode (.num 135) (by decide)]
  · exact classify_of_shape _ _ .p2shOut rfl rfl

/-- C32. `OpReturnOut.create`: classified as such; the getter returns the data. -/
theorem C32_op_return (d : Bytes) (h1 : 1 ≤ d.length) (h2 : d.length < 2 ^ 32) :
    ∃ s, OpReturnOut.create ⟨.str, d⟩ = .ok s ∧ s.cls = .opReturnOut ∧
      Script.classify s.instructions = .ok .opReturnOut ∧ OpReturnOut.getData s = .ok (some ⟨.str, d⟩) := by
  obtain ⟨i, hi⟩ := instruction_bytes d h1 h2
  obtain ⟨_, di, pi, wi⟩ := instruction_bytes_ok _ i hi
  refine ⟨⟨.opReturnOut, [⟨.num 106, none⟩, i]⟩, ?_, rfl, ?_, ?_⟩
  · simp only [OpReturnOut.create, ofSchematic, toInstructions, hi, instruction_opcode (.num 106) (by decide)]
  · apply classify_of_shape _ _ .nullData rfl
    rw [shape_cons_plain _ _ (by decide), shape_cons_push i _ pi]; rfl
  · simp [OpReturnOut.getData, dataAt, di]

theorem forNumber_ok (n : Nat) (h : n ≤ 16) : ∃ o, Opcode.forNumber n = .ok o ∧ smallNumber o.number = some n ∧
    o.numberValue = .ok n ∧ pushKind o.number = .plain := by
  have : ∀ n : Fin 17, ∃ o, Opcode.forNumber n.val = .ok o ∧ smallNumber o.number = some n.val ∧
    o.numberValue = .ok n.val ∧ pushKind o.number = .plain := by
    intro n
    have key : ∀ n : Fin 17, (match Opcode.forNumber n.val with
      | .ok o => decide (smallNumber o.number = some n.val ∧ o.numberValue = .ok (n.val : Int) ∧
          pushKind o.number = .plain)
      | .error _ => false) = true := by decide +kernel
    have := key n
    cases ho : Opcode.forNumber n.val with
    | error e => rw [ho] at this; cases this
    | ok o => rw [ho] at this; exact ⟨o, rfl, by simpa using this⟩
  exact this ⟨n, by omega⟩

theorem mapM_toBytes (ks : List PublicKey) (h : ∀ k ∈ ks, k.Valid) : ∃ bs, ks.mapM PublicKey.toBytes = .ok bs ∧
    bs.length = ks.length ∧ (∀ b ∈ bs, 1 ≤ b.length ∧ b.length < 76) ∧
    ∀ is : List Instruction, is.map (·.data) = bs.map (some ⟨.str, ·⟩) →
      is.mapM (fun i => publicKeyOf i.data) = .ok (ks.map fun k => ⟨k.pair, .livenet, k.compressed⟩) := by
  induction ks with
  | nil => exact ⟨[], rfl, rfl, by simp, fun is his => by simp at his; subst his; rfl⟩
  | cons k ks ih =>
    obtain ⟨bs, h1, h2, h3, h4⟩ := ih fun x hx => h x (by simp [hx])
    obtain ⟨b, hb, hl, hf⟩ := valid_bytes k (h k (by simp))
    refine ⟨b :: bs, by rw [List.mapM_cons, hb, h1]; rfl, by simp [h2], ?_, ?_⟩
    · intro x hx
      rcases List.mem_cons.1 hx with rfl | hx
      · rw [hl]; split <;> omega
      · exact h3 x hx
    · intro is his
      cases is with
      | nil => simp at his
      | cons i is =>
        simp only [List.map_cons, List.cons.injEq] at his
        rw [List.mapM_cons, h4 is his.2, his.1]
        simp only [publicKeyOf, hf]
        rfl

/-- C32. `RedeemMultisig.create` with 1 to 16 keys and a threshold of at most 16: classified as such; the getters return
the threshold and the keys (as livenet keys). -/
theorem C32_multisig (ks : List PublicKey) (m : Nat) (hk : ∀ k ∈ ks, k.Valid) (hm : m ≤ 16) (h1 : 1 ≤ ks.length)
    (h2 : ks.length ≤ 16) :
    ∃ s, RedeemMultisig.create ks m = .ok s ∧ s.cls = .redeemMultisig ∧ s.WellFormed ∧
      Script.classify s.instructions = .ok .redeemMultisig ∧
      RedeemMultisig.getMinSignatures s = .ok m ∧
      RedeemMultisig.getPublicKeys s = .ok (ks.map fun k => ⟨k.pair, .livenet, k.compressed⟩) := by
  obtain ⟨om, hom, sm, vm, pm⟩ := forNumber_ok m hm
  obtain ⟨on, hon, sn, vn, pn⟩ := forNumber_ok ks.length h2
  obtain ⟨bs, hbs, lbs, rbs, fbs⟩ := mapM_toBytes ks hk
  obtain ⟨is, his⟩ := toInstructions_pushes_ok bs fun b hb => ⟨(rbs b hb).1, by have := (rbs b hb).2; omega⟩
  have his' : toInstructions ((bs.map (⟨.str, ·⟩) : List Data).map .bytes) = .ok is := by
    rw [List.map_map]; exact his
  obtain ⟨d, sh, wf⟩ := toInstructions_pushes _ is his'
  have hlen : is.length = ks.length := by rw [← lbs]; simpa using congrArg List.length d
  have hto : toInstructions ([.opcode om] ++ bs.map (fun b => .bytes ⟨.str, b⟩) ++ [.opcode on] ++ [.opcode (.num 174)]) =
      .ok (⟨om, none⟩ :: (is ++ [⟨on, none⟩, ⟨.num 174, none⟩])) := by
    rw [List.append_assoc, List.append_assoc, toInstructions_append]
    refine ⟨[⟨om, none⟩], is ++ [⟨on, none⟩, ⟨.num 174, none⟩], ?_, ?_, by simp⟩
    · simp [toInstructions, instruction_opcode om pm]
    · rw [toInstructions_append]
      exact ⟨is, _, his, by simp [toInstructions, instruction_opcode on pn, instruction_opcode (.num 174) (by decide)], rfl⟩
  refine ⟨⟨.redeemMultisig, ⟨om, none⟩ :: (is ++ [⟨on, none⟩, ⟨.num 174, none⟩])⟩, ?_, rfl, ?_, ?_, ?_, ?_⟩
  · unfold RedeemMultisig.create
    simp only [hom, hbs, hon, bind, Except.bind, ofSchematic, hto]
  · intro x hx
    simp only [List.mem_cons, List.mem_append, List.not_mem_nil, or_false] at hx
    rcases hx with rfl | hx | rfl | rfl
    · exact pm
    · exact wf x hx
    · exact pn
    · decide
  · apply classify_of_shape _ _ .multisig rfl
    refine ⟨om.number, on.number, ks.length, h1, by rw [sm]; rfl, by rw [sn]; rfl, ?_⟩
    rw [shape_cons_plain _ _ pm, shape_append, sh, shape_cons_plain _ _ pn, shape_cons_plain _ _ (by decide),
      List.length_map, lbs]
    rfl
  · simp [RedeemMultisig.getMinSignatures, vm]
  · simp only [RedeemMultisig.getPublicKeys, List.length_cons, List.length_append, List.length_nil]
    rw [show is.length + (0 + 1 + 1) + 1 - 2 = is.length + 1 by omega, List.take_succ_cons, List.take_left,
      List.drop_succ_cons, List.drop_zero]
    exact fbs is (by rw [d, List.map_map]; rfl)

/-! ## The getters on every script -/

/-- C32. The getters of the templates on every script: an IndexError where the script is too short, and the data of the
instruction otherwise. -/
theorem C32_getters (s : Script) (pre post : List Instruction) (i : Instruction)
    (h : s.instructions = pre ++ i :: post) :
    (pre.length = 0 → PayToPubkeyIn.getSignature s = .ok i.data ∧
      RedeemMultisig.getMinSignatures s = i.opcode.numberValue) ∧
    (pre.length = 1 → PayToPubkeyIn.getPublicKey s = publicKeyOf i.data ∧
      PayToScriptOut.getScriptHash s = .ok i.data ∧ OpReturnOut.getData s = .ok i.data) ∧
    (pre.length = 2 → PayToPubkeyOut.getAddressHash s = .ok i.data) ∧
    (post = [] → PayToScriptIn.getScript s =
      match i.data with
      | none => .error .typeError
      | some d => Script.fromBytes d.val) := by
  refine ⟨fun hp => ?_, fun hp => ?_, fun hp => ?_, fun hp => ?_⟩
  · match pre, hp with
    | [], _ => simp [PayToPubkeyIn.getSignature, RedeemMultisig.getMinSignatures, dataAt, h]
  · match pre, hp with
    | [_], _ =>
      refine ⟨?_, ?_, ?_⟩
      · simp only [PayToPubkeyIn.getPublicKey, dataAt, h]
        rfl
      · simp [PayToScriptOut.getScriptHash, dataAt, h]
      · simp [OpReturnOut.getData, dataAt, h]
  · match pre, hp with
    | [_, _], _ => simp [PayToPubkeyOut.getAddressHash, dataAt, h]
  · subst hp
    simp only [PayToScriptIn.getScript, h, List.getLast?_append, List.getLast?_singleton, Option.some_or]
    cases i.data <;> rfl

/-- C32. The getters of the templates on scripts that are too short. -/
theorem C32_getters_short (s : Script) :
    (s.instructions.length ≤ 0 → PayToPubkeyIn.getSignature s = .error .indexError ∧
      RedeemMultisig.getMinSignatures s = .error .indexError ∧ PayToScriptIn.getScript s = .error .indexError) ∧
    (s.instructions.length ≤ 1 → PayToPubkeyIn.getPublicKey s = .error .indexError ∧
      PayToScriptOut.getScriptHash s = .error .indexError ∧ OpReturnOut.getData s = .error .indexError) ∧
    (s.instructions.length ≤ 2 → PayToPubkeyOut.getAddressHash s = .error .indexError ∧
      PayToScriptIn.getSignatures s = []  ∧ RedeemMultisig.getPublicKeys s = .ok []) := by
  have key : ∀ n, s.instructions.length ≤ n → dataAt s n = .error .indexError := fun n hn => by
    simp [dataAt, List.getElem?_eq_none hn]
  refine ⟨fun h => ⟨key 0 h, ?_, ?_⟩, fun h => ⟨?_, key 1 h, key 1 h⟩, fun h => ⟨key 2 h, ?_, ?_⟩⟩
  · have : s.instructions = [] := List.length_eq_zero_iff.1 (by omega)
    simp [RedeemMultisig.getMinSignatures, this]
  · have : s.instructions = [] := List.length_eq_zero_iff.1 (by omega)
    simp [PayToScriptIn.getScript, this]
  · simp only [PayToPubkeyIn.getPublicKey, key 1 h]
    rfl
  · have : (s.instructions.take (s.instructions.length - 1)).drop 1 = [] :=
      List.drop_eq_nil_of_le (by rw [List.length_take]; omega)
    simp [PayToScriptIn.getSignatures, this]
  · have : (s.instructions.take (s.instructions.length - 2)).drop 1 = [] :=
      List.drop_eq_nil_of_le (by rw [List.length_take]; omega)
    simp only [RedeemMultisig.getPublicKeys, this]
    rfl

example : PayToScriptIn.getScript ⟨.payToScriptIn, [⟨.num 0, none⟩, ⟨.num 81, none⟩]⟩ = .error .typeError :=
  (C32_getters _ [⟨.num 0, none⟩] [] ⟨.num 81, none⟩ rfl).2.2.2 rfl

/-! ## Where the property fails -/

/-- C32 is false of the code: `PayToScriptIn.create` with no signatures, and `RedeemMultisig.create` with no keys, are
not classified as their template. -/
theorem C32_empty_refuted :
    (∃ r s, PayToScriptIn.create r [] = .ok s ∧ s.cls = .payToScriptIn ∧ Script.classify s.instructions = .ok .generic) ∧
    (∃ s, RedeemMultisig.create [] 0 = .ok s ∧ s.cls = .redeemMultisig ∧
      Script.classify s.instructions = .ok .generic) :=
  ⟨⟨⟨.generic, [⟨.num 81, none⟩]⟩, ⟨.payToScriptIn, [⟨.num 0, none⟩, ⟨.num 1, some ⟨.str, [81]⟩⟩]⟩,
      by decide +kernel, rfl, by decide +kernel⟩,
    ⟨⟨.redeemMultisig, [⟨.num 0, none⟩, ⟨.num 0, none⟩, ⟨.num 174, none⟩]⟩, by decide +kernel, rfl, by decide +kernel⟩⟩

/-- C32 is false of the code: the key getters do not work on parsed scripts, whose data are `bytearray`s. -/
theorem C32_parsed_key_refuted (s : Script) (b : Bytes) (h : Script.fromBytes b = .ok s) (hc : s.cls = .payToPubkeyIn) :
    PayToPubkeyIn.getPublicKey s = .error .pubInvalidBinary := by
  obtain ⟨ws, hw, hi, hcl⟩ := fromBytes_ok b s h
  rw [hc] at hcl
  have hm := (C32_classify_exact s.instructions _ hcl .p2pkhIn).1 rfl
  have hwire : s.instructions.map Instruction.wire = ws := by
    rw [hi, List.map_map]; conv_rhs => rw [← List.map_id ws]
    exact List.map_congr_left fun w _ => wire_ofWire w
  rw [hwire] at hm
  simp only [Matches, shape] at hm
  match ws, hm, hi, hw with
  | [(o1, d1), (o2, d2)], hm, hi, hw =>
    simp only [PayToPubkeyIn.getPublicKey, dataAt, hi, List.map_cons, List.getElem?_cons_succ, List.getElem?_cons_zero]
    have hw2 := encodes_wf hw (o2, d2) (by simp)
    simp only [List.map_cons, List.map_nil, List.cons.injEq, and_true] at hm
    cases d2 with
    | none =>
      simp only [Wf] at hw2
      simp [hw2] at hm
    | some d =>
      show publicKeyOf (some ⟨.bytearray, d⟩) = _
      exact C19_bytearray d _
  | [], hm, _, _ => simp at hm
  | [_], hm, _, _ => simp at hm
  | _ :: _ :: _ :: _, hm, _, _ => simp at hm

example : (⟨(secpGx, secpGy), .testnet, true⟩ : PublicKey).Valid :=
  ⟨by unfold OnSecp; decide, by unfold reduced; decide, by unfold reduced; decide⟩

end Bitforge
