import Verif.Compare
import Verif.Props.Tx

/-! # C81 comparison and hashing -/

namespace Bitforge

/-! ## Opcodes -/

/-- C81. The comparison operators of opcodes are those of their numbers. -/
theorem C81_opcode_order (o p : Opcode) (id : Nat) :
    (o.pyEq ⟨id, some p⟩ = true ↔ o.number.val = p.number.val) ∧
    (o.pyLt ⟨id, some p⟩ = true ↔ o.number.val < p.number.val) ∧
    (o.pyLe ⟨id, some p⟩ = true ↔ o.number.val ≤ p.number.val) ∧
    (o.pyGt ⟨id, some p⟩ = true ↔ o.number.val > p.number.val) ∧
    (o.pyGe ⟨id, some p⟩ = true ↔ o.number.val ≥ p.number.val) ∧
    (∀ P, o.hash P = p.hash P ∨ ¬ o.pyEq ⟨id, some p⟩ = true) := by
  obtain ⟨⟨a, ha⟩⟩ := o
  obtain ⟨⟨b, hb⟩⟩ := p
  simp only [Opcode.pyEq, Opcode.pyLt, Opcode.pyLe, Opcode.pyGt, Opcode.pyGe, beq_iff_eq, decide_eq_true_eq,
    Bool.or_eq_true, Bool.not_eq_true', Bool.or_eq_false_iff, decide_eq_false_iff_not, Fin.mk.injEq, beq_eq_false_iff_ne,
    ne_eq, Opcode.hash, true_and]
  refine ⟨by omega, by omega, by omega, fun P => ?_⟩
  by_cases h : a = b
  · exact .inl (by rw [h])
  · exact .inr h

/-- C81. Against any object exactly one of `<`, `==`, `>` holds, and `<=`, `>=` are what they should be; objects that
are not opcodes are below every opcode. -/
theorem C81_trichotomy (o : Opcode) (x : Obj) :
    ([o.pyLt x, o.pyEq x, o.pyGt x].count true = 1) ∧ o.pyLe x = (o.pyLt x || o.pyEq x) ∧
    o.pyGe x = (o.pyGt x || o.pyEq x) ∧ (x.opcode = none → o.pyGt x = true) := by
  obtain ⟨id, p⟩ := x
  cases p with
  | none => simp [Opcode.pyLt, Opcode.pyEq, Opcode.pyGt, Opcode.pyLe, Opcode.pyGe]
  | some p =>
    obtain ⟨h1, h2, h3, h4, h5, _⟩ := C81_opcode_order o p id
    refine ⟨?_, rfl, ?_, by simp⟩
    · rcases Nat.lt_trichotomy o.number.val p.number.val with h | h | h
      · have a := h2.2 h
        have b : ¬ o.pyEq ⟨id, some p⟩ = true := fun e => by have := h1.1 e; omega
        have c : ¬ o.pyGt ⟨id, some p⟩ = true := fun e => by have := h4.1 e; omega
        simp [a, b, c]
      · have a : ¬ o.pyLt ⟨id, some p⟩ = true := fun e => by have := h2.1 e; omega
        have b := h1.2 h
        have c : ¬ o.pyGt ⟨id, some p⟩ = true := fun e => by have := h4.1 e; omega
        simp [a, b, c]
      · have a : ¬ o.pyLt ⟨id, some p⟩ = true := fun e => by have := h2.1 e; omega
        have b : ¬ o.pyEq ⟨id, some p⟩ = true := fun e => by have := h1.1 e; omega
        have c := h4.2 h
        simp [a, b, c]
    · rw [Bool.eq_iff_iff, Bool.or_eq_true, h5, h4, h1]
      omega

/-- C81, part that holds of `!=`: if each number has one object (`id` determines and is determined by the opcode),
`!=` is the negation of `==`.  Missing: see the refutation. -/
theorem C81_ne_partial (o : Opcode) (id : Nat) (x : Obj) (h : id = x.id ↔ x.opcode = some o) :
    Opcode.pyNe id x = !o.pyEq x := by
  obtain ⟨⟨n, hn⟩⟩ := o
  obtain ⟨i, p⟩ := x
  simp only at h
  rw [Bool.eq_iff_iff]
  simp only [Opcode.pyNe, bne_iff_ne, ne_eq, h, Bool.not_eq_true', Opcode.pyEq]
  cases p with
  | none => simp
  | some p =>
    obtain ⟨⟨m, hm⟩⟩ := p
    simp only [Option.some.injEq, Opcode.mk.injEq, Fin.mk.injEq, beq_eq_false_iff_ne, ne_eq]
    exact not_congr eq_comm

/-- C81 is false of the code: any two different objects for the same opcode are `==` and `!=` at once. -/
theorem C81_ne_refuted (o : Opcode) (id id' : Nat) (h : id ≠ id') :
    o.pyEq ⟨id', some o⟩ = true ∧ Opcode.pyNe id ⟨id', some o⟩ = true := by
  simp [Opcode.pyEq, Opcode.pyNe, h]

example : (Opcode.num 81).pyLe ⟨7, some (.num 96)⟩ = true ∧ (Opcode.num 97).pyLe ⟨7, some (.num 96)⟩ = false ∧
    (Opcode.num 97).pyGt ⟨7, none⟩ = true ∧ Opcode.pyNe 3 ⟨7, some (.num 96)⟩ = true := by decide

/-! ## Equality -/

/-- C81. Equality of instructions, scripts, inputs, outputs and transactions is an equivalence relation. -/
theorem C81_equivalence :
    Equivalence (fun i j : Instruction => i.eq j = true) ∧ Equivalence (fun s t : Script => s.eq t = true) ∧
    Equivalence (fun i j : Input => i.eq j = true) ∧ Equivalence (fun o q : Output => o.eq q = true) ∧
    Equivalence (fun t u : Transaction => t.eq u = true) := by
  have hin : Equivalence (fun i j : Input => i.eq j = true) := by
    simp only [input_eq_iff]
    exact ⟨fun _ => ⟨rfl, rfl, rfl, rfl⟩, fun h => ⟨h.1.symm, h.2.1.symm, h.2.2.1.symm, h.2.2.2.symm⟩,
      fun h g => ⟨h.1.trans g.1, h.2.1.trans g.2.1, h.2.2.1.trans g.2.2.1, h.2.2.2.trans g.2.2.2⟩⟩
  have hout : Equivalence (fun i j : Output => i.eq j = true) := by
    simp only [output_eq_iff]
    exact ⟨fun _ => ⟨rfl, rfl⟩, fun h => ⟨h.1.symm, h.2.symm⟩, fun h g => ⟨h.1.trans g.1, h.2.trans g.2⟩⟩
  have all : ∀ {α : Type} {R : α → α → Prop}, Equivalence R → Equivalence (List.Forall₂ R) := by
    intro α R h
    refine ⟨fun xs => ?_, fun {xs ys} hs => ?_, fun {xs ys zs} hs => ?_⟩
    · induction xs with
      | nil => exact .nil
      | cons x xs ih => exact .cons (h.refl x) ih
    · induction hs with
      | nil => exact .nil
      | cons a _ ih => exact .cons (h.symm a) ih
    · induction hs generalizing zs with
      | nil => intro g; exact g
      | cons a _ ih => intro g; cases g with | cons b g => exact .cons (h.trans a b) (ih g)
  refine ⟨?_, ?_, hin, hout, ?_⟩
  · simp only [Instruction.eq, Bool.and_eq_true, beq_iff_eq]
    exact ⟨fun _ => ⟨rfl, rfl⟩, fun h => ⟨h.1.symm, h.2.symm⟩, fun h g => ⟨h.1.trans g.1, h.2.trans g.2⟩⟩
  · simp only [script_eq_iff]
    exact ⟨fun _ => rfl, Eq.symm, Eq.trans⟩
  · simp only [tx_eq_iff]
    exact ⟨fun _ => ⟨(all hin).refl _, (all hout).refl _, rfl, rfl⟩,
      fun h => ⟨(all hin).symm h.1, (all hout).symm h.2.1, h.2.2.1.symm, h.2.2.2.symm⟩,
      fun h g => ⟨(all hin).trans h.1 g.1, (all hout).trans h.2.1 g.2.1, h.2.2.1.trans g.2.2.1, h.2.2.2.trans g.2.2.2⟩⟩

/-! ## Hashes -/

/-- The data of an instruction is nothing or a `str`. -/
def Instruction.Hashable (i : Instruction) : Prop := ∀ d, i.data = some d → d.kind = .str

/-- All data of the script are `str`s. -/
def Script.Hashable (s : Script) : Prop := ∀ i ∈ s.instructions, i.Hashable

/-- A list of values that can be hashed: the loop over a tuple succeeds. -/
theorem go_ok {α : Type} (f : α → Except Err Int) : ∀ xs : List α, (∀ x ∈ xs, ∃ h, f x = .ok h) →
    ∃ hs, PyHash.ofTuple.go (xs.map f) = .ok hs
  | [], _ => ⟨[], rfl⟩
  | x :: xs, h => by
    obtain ⟨a, ha⟩ := h x (by simp)
    obtain ⟨hs, hr⟩ := go_ok f xs fun y hy => h y (by simp [hy])
    exact ⟨a :: hs, by simp [PyHash.ofTuple.go, ha, hr]⟩

/-- If the hash of each element is a value or a TypeError, and one is a TypeError, the tuple is a TypeError. -/
theorem go_err {α : Type} (f : α → Except Err Int) : ∀ xs : List α,
    (∀ x ∈ xs, (∃ h, f x = .ok h) ∨ f x = .error .typeError) → (∃ x ∈ xs, f x = .error .typeError) →
    PyHash.ofTuple.go (xs.map f) = .error .typeError
  | [], _, h => by simp at h
  | x :: xs, h, ⟨y, hy, he⟩ => by
    rcases h x (by simp) with ⟨a, ha⟩ | ha
    · have hy' : y ∈ xs := by
        rcases List.mem_cons.1 hy with rfl | hy
        · rw [ha] at he; cases he
        · exact hy
      have := go_err f xs (fun z hz => h z (by simp [hz])) ⟨y, hy', he⟩
      simp [PyHash.ofTuple.go, ha, this]
    · simp [PyHash.ofTuple.go, ha]

theorem instruction_hash (P : PyHash) (i : Instruction) :
    (i.Hashable ∧ ∃ h, i.hash P = .ok h) ∨ (¬ i.Hashable ∧ i.hash P = .error .typeError) := by
  obtain ⟨o, d⟩ := i
  cases d with
  | none => exact .inl ⟨by simp [Instruction.Hashable], _, rfl⟩
  | some d =>
    obtain ⟨k, v⟩ := d
    cases k with
    | str => exact .inl ⟨by simp [Instruction.Hashable], _, rfl⟩
    | bytearray => exact .inr ⟨by simp [Instruction.Hashable], rfl⟩

theorem script_hash (P : PyHash) (s : Script) :
    (s.Hashable ∧ ∃ h, s.hash P = .ok h) ∨ (¬ s.Hashable ∧ s.hash P = .error .typeError) := by
  by_cases hs : s.Hashable
  · obtain ⟨hs', hr⟩ := go_ok (fun i => Instruction.hash P i) s.instructions fun i hi => by
      rcases instruction_hash P i with h | h
      · exact h.2
      · exact absurd (hs i hi) h.1
    exact .inl ⟨hs, P.tuple [P.tuple hs'], by simp [Script.hash, PyHash.ofTuple, hr, PyHash.ofTuple.go, Except.map]⟩
  · have : ∃ i ∈ s.instructions, Instruction.hash P i = .error .typeError := by
      unfold Script.Hashable at hs
      push Not at hs
      obtain ⟨i, hi, hn⟩ := hs
      rcases instruction_hash P i with h | h
      · exact absurd h.1 hn
      · exact ⟨i, hi, h.2⟩
    have hr := go_err (fun i => Instruction.hash P i) s.instructions (fun i _ => by
      rcases instruction_hash P i with h | h
      · exact .inl h.2
      · exact .inr h.2) this
    exact .inr ⟨hs, by simp [Script.hash, PyHash.ofTuple, hr, PyHash.ofTuple.go, Except.map]⟩

theorem input_hash (P : PyHash) (i : Input) :
    (i.script.Hashable ∧ ∃ h, i.hash P = .ok h) ∨ (¬ i.script.Hashable ∧ i.hash P = .error .typeError) := by
  rcases script_hash P i.script with ⟨h, a, ha⟩ | ⟨h, ha⟩
  · exact .inl ⟨h, P.tuple [P.text i.txId, P.int i.txoIndex, a, P.int i.seqNumber],
      by simp [Input.hash, PyHash.ofTuple, ha, PyHash.ofTuple.go, Except.map]⟩
  · exact .inr ⟨h, by simp [Input.hash, PyHash.ofTuple, ha, PyHash.ofTuple.go, Except.map]⟩

theorem output_hash (P : PyHash) (o : Output) :
    (o.script.Hashable ∧ ∃ h, o.hash P = .ok h) ∨ (¬ o.script.Hashable ∧ o.hash P = .error .typeError) := by
  rcases script_hash P o.script with ⟨h, a, ha⟩ | ⟨h, ha⟩
  · exact .inl ⟨h, P.tuple [P.int o.amount, a],
      by simp [Output.hash, PyHash.ofTuple, ha, PyHash.ofTuple.go, Except.map]⟩
  · exact .inr ⟨h, by simp [Output.hash, PyHash.ofTuple, ha, PyHash.ofTuple.go, Except.map]⟩

/-- C81, part that holds: a transaction can be hashed exactly if all its scripts have only `str` data; otherwise TypeError.
Missing: the others, such as parsed ones (see the refutation). -/
theorem C81_transaction_hash_partial (P : PyHash) (t : Transaction) :
    ((∀ i ∈ t.inputs, i.script.Hashable) ∧ (∀ o ∈ t.outputs, o.script.Hashable) ∧ ∃ h, t.hash P = .ok h) ∨
    (¬ ((∀ i ∈ t.inputs, i.script.Hashable) ∧ ∀ o ∈ t.outputs, o.script.Hashable) ∧ t.hash P = .error .typeError) := by
  by_cases h1 : ∀ i ∈ t.inputs, i.script.Hashable
  · obtain ⟨a, ha⟩ := go_ok (fun i => Input.hash P i) t.inputs fun i hi => by
      rcases input_hash P i with h | h
      · exact h.2
      · exact absurd (h1 i hi) h.1
    by_cases h2 : ∀ o ∈ t.outputs, o.script.Hashable
    · obtain ⟨b, hb⟩ := go_ok (fun o => Output.hash P o) t.outputs fun i hi => by
        rcases output_hash P i with h | h
        · exact h.2
        · exact absurd (h2 i hi) h.1
      exact .inl ⟨h1, h2, P.tuple [P.tuple a, P.tuple b, P.int t.lockTime, P.int t.version],
        by simp [Transaction.hash, PyHash.ofTuple, ha, hb, PyHash.ofTuple.go, Except.map]⟩
    · refine .inr ⟨fun h => h2 h.2, ?_⟩
      push Not at h2
      obtain ⟨o, ho, hn⟩ := h2
      have hr := go_err (fun o => Output.hash P o) t.outputs (fun i _ => by
        rcases output_hash P i with h | h
        · exact .inl h.2
        · exact .inr h.2) ⟨o, ho, by
          rcases output_hash P o with h | h
          · exact absurd h.1 hn
          · exact h.2⟩
      simp [Transaction.hash, PyHash.ofTuple, ha, hr, PyHash.ofTuple.go, Except.map]
  · refine .inr ⟨fun h => h1 h.1, ?_⟩
    push Not at h1
    obtain ⟨o, ho, hn⟩ := h1
    have hr := go_err (fun o => Input.hash P o) t.inputs (fun i _ => by
      rcases input_hash P i with h | h
      · exact .inl h.2
      · exact .inr h.2) ⟨o, ho, by
        rcases input_hash P o with h | h
        · exact absurd h.1 hn
        · exact h.2⟩
    simp [Transaction.hash, PyHash.ofTuple, hr, PyHash.ofTuple.go, Except.map]

/-- Equal instructions that can be hashed have the same hash. -/
theorem instruction_hash_congr (P : PyHash) (i j : Instruction) (he : i.wire = j.wire) (hi : i.Hashable)
    (hj : j.Hashable) : i.hash P = j.hash P := by
  obtain ⟨⟨o⟩, d⟩ := i
  obtain ⟨⟨p⟩, e⟩ := j
  cases d with
  | none =>
    cases e with
    | none => simp [Instruction.wire] at he; rw [he]
    | some e => simp [Instruction.wire] at he
  | some d =>
    cases e with
    | none => simp [Instruction.wire] at he
    | some e =>
      have a := hi d rfl
      have b := hj e rfl
      obtain ⟨k, v⟩ := d
      obtain ⟨l, w⟩ := e
      simp only at a b
      subst a; subst b
      simp [Instruction.wire] at he
      rw [he.1, he.2]

theorem script_hash_congr (P : PyHash) (s t : Script) (he : s.wires = t.wires) (hs : s.Hashable) (ht : t.Hashable) :
    s.hash P = t.hash P := by
  obtain ⟨c, is⟩ := s
  obtain ⟨c', js⟩ := t
  have : is.map (fun i => Instruction.hash P i) = js.map fun i => Instruction.hash P i := by
    simp only [Script.wires] at he
    simp only [Script.Hashable] at hs ht
    induction is generalizing js with
    | nil => cases js with
      | nil => rfl
      | cons j js => simp at he
    | cons i is ih => cases js with
      | nil => simp at he
      | cons j js =>
        simp only [List.map_cons, List.cons.injEq] at he ⊢
        exact ⟨instruction_hash_congr P i j he.1 (hs i (by simp)) (ht j (by simp)),
          ih (fun x hx => hs x (by simp [hx])) js (fun x hx => ht x (by simp [hx])) he.2⟩
  simp only [Script.hash, this]

/-- C81. Equal objects have equal hashes, whenever both have one: instructions, scripts, inputs, outputs, transactions. -/
theorem C81_hash_congr (P : PyHash) :
    (∀ (i j : Instruction) h h', i.eq j = true → i.hash P = .ok h → j.hash P = .ok h' → h = h') ∧
    (∀ (s t : Script) h h', s.eq t = true → s.hash P = .ok h → t.hash P = .ok h' → h = h') ∧
    (∀ (i j : Input) h h', i.eq j = true → i.hash P = .ok h → j.hash P = .ok h' → h = h') ∧
    (∀ (o q : Output) h h', o.eq q = true → o.hash P = .ok h → q.hash P = .ok h' → h = h') ∧
    (∀ (t u : Transaction) h h', t.eq u = true → t.hash P = .ok h → u.hash P = .ok h' → h = h') := by
  have hin : ∀ (i j : Input), i.eq j = true → i.script.Hashable → j.script.Hashable → i.hash P = j.hash P := by
    intro i j he hi hj
    obtain ⟨h1, h2, h3, h4⟩ := (input_eq_iff i j).1 he
    simp only [Input.hash, h1, h2, h4, script_hash_congr P _ _ h3 hi hj]
  have hout : ∀ (i j : Output), i.eq j = true → i.script.Hashable → j.script.Hashable → i.hash P = j.hash P := by
    intro i j he hi hj
    obtain ⟨h1, h2⟩ := (output_eq_iff i j).1 he
    simp only [Output.hash, h1, script_hash_congr P _ _ h2 hi hj]
  have map_congr : ∀ {α : Type} {R Q : α → Prop} {E : α → α → Prop} (f : α → Except Err Int),
      (∀ x y, E x y → Q x → Q y → f x = f y) → ∀ {xs ys : List α}, List.Forall₂ E xs ys → (∀ x ∈ xs, Q x) →
      (∀ y ∈ ys, Q y) → xs.map f = ys.map f := by
    intro α R Q E f hf xs ys hs
    induction hs with
    | nil => intros; rfl
    | cons a _ ih =>
      intro h1 h2
      rw [List.map_cons, List.map_cons, hf _ _ a (h1 _ (by simp)) (h2 _ (by simp)),
        ih (fun x hx => h1 x (by simp [hx])) (fun x hx => h2 x (by simp [hx]))]
  have fin : ∀ {x y : Except Err Int} {h h' : Int}, x = y → x = .ok h → y = .ok h' → h = h' := by
    intro x y h h' e a b
    rw [a, b] at e
    exact Except.ok.inj e
  refine ⟨?_, ?_, ?_, ?_, ?_⟩
  · intro i j h h' he a b
    have hw : i.wire = j.wire := by
      obtain ⟨⟨op⟩, d⟩ := i
      obtain ⟨⟨op'⟩, d'⟩ := j
      simpa [Instruction.eq, Instruction.wire] using he
    rcases instruction_hash P i with ⟨hi, _⟩ | ⟨_, hi⟩
    · rcases instruction_hash P j with ⟨hj, _⟩ | ⟨_, hj⟩
      · exact fin (instruction_hash_congr P i j hw hi hj) a b
      · rw [hj] at b; cases b
    · rw [hi] at a; cases a
  · intro i j h h' he a b
    rcases script_hash P i with ⟨hi, _⟩ | ⟨_, hi⟩
    · rcases script_hash P j with ⟨hj, _⟩ | ⟨_, hj⟩
      · exact fin (script_hash_congr P i j ((script_eq_iff i j).1 he) hi hj) a b
      · rw [hj] at b; cases b
    · rw [hi] at a; cases a
  · intro i j h h' he a b
    rcases input_hash P i with ⟨hi, _⟩ | ⟨_, hi⟩
    · rcases input_hash P j with ⟨hj, _⟩ | ⟨_, hj⟩
      · exact fin (hin i j he hi hj) a b
      · rw [hj] at b; cases b
    · rw [hi] at a; cases a
  · intro i j h h' he a b
    rcases output_hash P i with ⟨hi, _⟩ | ⟨_, hi⟩
    · rcases output_hash P j with ⟨hj, _⟩ | ⟨_, hj⟩
      · exact fin (hout i j he hi hj) a b
      · rw [hj] at b; cases b
    · rw [hi] at a; cases a
  · intro t u h h' he a b
    rcases C81_transaction_hash_partial P t with ⟨hi, ho, _⟩ | ⟨_, hi⟩
    · rcases C81_transaction_hash_partial P u with ⟨gi, go, _⟩ | ⟨_, hj⟩
      · obtain ⟨e1, e2, e3, e4⟩ := (tx_eq_iff t u).1 he
        refine fin ?_ a b
        simp only [Transaction.hash, e3, e4]
        rw [map_congr (R := fun _ => True) (Q := fun i : Input => i.script.Hashable) (fun i => Input.hash P i) hin e1 hi gi,
          map_congr (R := fun _ => True) (Q := fun i : Output => i.script.Hashable) (fun i => Output.hash P i) hout e2 ho go]
      · rw [hj] at b; cases b
    · rw [hi] at a; cases a

/-- C81 is false of the code: a parsed script that pushes anything cannot be hashed. -/
theorem C81_parsed_refuted (P : PyHash) (b : Bytes) (s : Script) (h : Script.fromBytes b = .ok s)
    (hp : ∃ i ∈ s.instructions, i.data ≠ none) : s.hash P = .error .typeError := by
  obtain ⟨ws, _, hi, _⟩ := fromBytes_ok b s h
  rcases script_hash P s with ⟨hs, _⟩ | ⟨_, he⟩
  · obtain ⟨i, hi', hn⟩ := hp
    have := hs i hi'
    rw [hi] at hi'
    obtain ⟨⟨op, d⟩, _, rfl⟩ := List.mem_map.1 hi'
    cases d with
    | none => exact absurd rfl hn
    | some d => have := this _ rfl; cases this
  · exact he

/-- C81, part that holds: a parsed script that pushes nothing can be hashed, and so can every script whose data are
`str`s, as those that `compile` and `from_string` make.  Missing: see the refutation. -/
theorem C81_script_hash_partial (P : PyHash) (s : Script) :
    (∃ h, s.hash P = .ok h) ↔ ∀ i ∈ s.instructions, ∀ d, i.data = some d → d.kind = .str := by
  rcases script_hash P s with ⟨hs, h⟩ | ⟨hs, h⟩
  · exact ⟨fun _ => hs, fun _ => h⟩
  · constructor
    · rintro ⟨a, ha⟩; rw [h] at ha; cases ha
    · intro g; exact absurd g hs

/-- C81 is false of the code: no network, address or key can be hashed (`seeds` is a list), so that none can be put in
a set or be the key of a dictionary. -/
theorem C81_keys_refuted (P : PyHash) (n : Network) (a : Address) (k : PrivateKey) (q : PublicKey) :
    n.hash P = .error .typeError ∧ a.hash P = .error .typeError ∧ k.hash P = .error .typeError ∧
    q.hash P = .error .typeError := by
  have hn : ∀ n : Network, n.hash P = .error .typeError := fun n => rfl
  refine ⟨hn n, ?_, ?_, ?_⟩
  · simp [Address.hash, hn, PyHash.ofTuple, PyHash.ofTuple.go, Except.map]
  · simp [PrivateKey.hash, hn, PyHash.ofTuple, PyHash.ofTuple.go, Except.map]
  · simp [PublicKey.hash, hn, PyHash.ofTuple, PyHash.ofTuple.go, Except.map]

/-- A small family of hash functions for the examples. -/
def PyHash.toy : PyHash := ⟨id, fun b => b.length, fun t => t.length, 11, 12, fun l => l.foldl (fun a x => 31 * a + x) 7⟩

example : ∃ s t : Script, s ≠ t ∧ s.eq t = true ∧ s.hash .toy = t.hash .toy ∧ s.hash .toy = .ok 7225 ∧
    Script.fromBytes [2, 5, 6] = .ok ⟨.generic, [⟨.num 2, some ⟨.bytearray, [5, 6]⟩⟩]⟩ ∧
    (Script.mk .generic [⟨.num 2, some ⟨.bytearray, [5, 6]⟩⟩]).eq s = true ∧
    (Script.mk .generic [⟨.num 2, some ⟨.bytearray, [5, 6]⟩⟩]).hash .toy = .error .typeError :=
  ⟨⟨.generic, [⟨.num 2, some ⟨.str, [5, 6]⟩⟩]⟩, ⟨.opReturnOut, [⟨.num 2, some ⟨.str, [5, 6]⟩⟩]⟩, by decide, by decide,
    by decide +kernel, by decide +kernel, by decide +kernel, by decide +kernel, by decide +kernel⟩

end Bitforge
