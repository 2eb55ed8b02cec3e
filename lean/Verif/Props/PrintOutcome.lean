import Verif.Props.MakeOutcome
import Verif.Props.OpcodeOutcome
import Verif.Props.Repr
import Verif.Props.Compare
import Verif.Props.UriText

/-! # C133: what printing, comparing and hashing answer in every case -/

namespace Bitforge.Prints
open Spec Url

/-- `repr(opcode)`. -/
inductive OpcodePrinted (o : Opcode) : Except Err Text → Prop
  | direct {d : Text} {n : Nat} : pushKind o.number = .direct n → Decimal d o.number.val →
      OpcodePrinted o (.ok ("<Opcode PUSH ".toList ++ d ++ " BYTES>".toList))
  | named {d name : Text} : (∀ n, pushKind o.number ≠ .direct n) → Decimal d o.number.val → NameGiven o (.ok name) →
      OpcodePrinted o (.ok ("<Opcode ".toList ++ d ++ ": ".toList ++ name ++ ">".toList))
  | nameless : ¬ Named o.number → OpcodePrinted o (.error .keyError)

/-- `repr(instruction)`. -/
inductive InstructionPrinted (i : Instruction) : Except Err Text → Prop
  | nameless : ¬ Named i.opcode.number → InstructionPrinted i (.error .keyError)
  | missing : pushKind i.opcode.number ≠ .plain → i.data = none → InstructionPrinted i (.error .typeError)
  | push {name : Text} {d : Data} : NameGiven i.opcode (.ok name) → pushKind i.opcode.number ≠ .plain → i.data = some d →
      InstructionPrinted i (.ok ("<Instruction: ".toList ++ name ++ " '".toList ++ hexText d.val ++ "'>".toList))
  | plain {name : Text} : NameGiven i.opcode (.ok name) → pushKind i.opcode.number = .plain →
      InstructionPrinted i (.ok ("<Instruction: ".toList ++ name ++ ">".toList))

/-- `repr(script)`: a tuple; one element is followed by a comma. -/
inductive ScriptPrinted (s : Script) : Except Err Text → Prop
  | refused {e} : EachMade InstructionPrinted s.instructions (.error e) → ScriptPrinted s (.error e)
  | one {t} : EachMade InstructionPrinted s.instructions (.ok [t]) → ScriptPrinted s (.ok ("(".toList ++ t ++ ",)".toList))
  | other {ts} : EachMade InstructionPrinted s.instructions (.ok ts) → ts.length ≠ 1 →
      ScriptPrinted s (.ok ("(".toList ++ ", ".toList.intercalate ts ++ ")".toList))

theorem named_kind {b : Byte} (h : ¬ Named b) : pushKind b = .plain := by
  revert h
  revert b
  decide +kernel

theorem named_given (o : Opcode) (h : Named o.number) : ∃ name, NameGiven o (.ok name) := by
  obtain ⟨t, ht, -⟩ := name_named o.number h
  exact ⟨t, (C124_name _ _).1 ht⟩

/-- C133. What `repr` of every opcode is. -/
theorem C133_opcode (o : Opcode) (r : Except Err Text) : o.repr = r ↔ OpcodePrinted o r := by
  refine graph (f := Opcode.repr) (R := OpcodePrinted) ?_ ?_ o r
  · rintro o _ (⟨h, hd⟩ | ⟨h, hd, hn⟩ | h)
    · unfold Opcode.repr
      rw [if_pos (((C124_kinds o).1).2 ⟨_, h⟩), (decimal_iff _ _).1 hd]
    · unfold Opcode.repr
      rw [if_neg (fun hc => by obtain ⟨n, e⟩ := ((C124_kinds o).1).1 hc; exact h n e), (C124_name _ _).2 hn, (decimal_iff _ _).1 hd]
    · exact (C82_nameless_refuted o h).1
  · intro o
    by_cases hn : Named o.number
    · by_cases hd : ∃ n, pushKind o.number = .direct n
      · obtain ⟨n, hd⟩ := hd
        exact ⟨_, .direct hd (decimal_decText _)⟩
      · obtain ⟨name, h⟩ := named_given o hn
        exact ⟨_, .named (fun n h => hd ⟨n, h⟩) (decimal_decText _) h⟩
    · exact ⟨_, .nameless hn⟩

/-- C133. What `repr` of every instruction is, whichever way it was made. -/
theorem C133_instruction (i : Instruction) (r : Except Err Text) : i.repr = r ↔ InstructionPrinted i r := by
  refine graph (f := Instruction.repr) (R := InstructionPrinted) ?_ ?_ i r
  · rintro ⟨o, d⟩ _ (h | ⟨h, hd⟩ | ⟨hn, h, hd⟩ | ⟨hn, h⟩)
    · unfold Instruction.repr
      rw [(C124_name o _).2 (.nameless h)]
    · cases hd
      obtain ⟨name, hn⟩ := named_given o (by by_contra hc; exact h (named_kind hc))
      unfold Instruction.repr
      rw [(C124_name _ _).2 hn]
      simp only
      rw [if_pos (((C124_kinds o).2.2.1).2 h)]
    · cases hd
      unfold Instruction.repr
      rw [(C124_name _ _).2 hn]
      simp only
      rw [if_pos (((C124_kinds o).2.2.1).2 h), hexText_eq]
    · unfold Instruction.repr
      rw [(C124_name _ _).2 hn]
      simp only
      rw [if_neg (fun hc => ((C124_kinds o).2.2.1).1 hc h)]
  · rintro ⟨o, d⟩
    by_cases hn : Named o.number
    · obtain ⟨name, h⟩ := named_given o hn
      by_cases hp : pushKind o.number = .plain
      · exact ⟨_, .plain h hp⟩
      · cases d with
        | none => exact ⟨_, .missing hp rfl⟩
        | some d => exact ⟨_, .push h hp rfl⟩
    · exact ⟨_, .nameless hn⟩

theorem reprs_each (is : List Instruction) (r : Except Err (List Text)) : Script.reprs is = r ↔ EachMade InstructionPrinted is r :=
  each_graph (g := Script.reprs) C133_instruction rfl
    (fun x xs e h => by simp only [Script.reprs, h])
    (fun x xs y e h h' => by simp only [Script.reprs, h, h'])
    (fun x xs y ys h h' => by simp only [Script.reprs, h, h']) is r

theorem tuple_many (ts : List Text) (h : ts.length ≠ 1) :
    tupleText ts = "(".toList ++ ", ".toList.intercalate ts ++ ")".toList := by
  match ts, h with
  | [], _ => rfl
  | [t], h => exact absurd rfl h
  | t :: u :: ts, _ =>
    have : ∀ (t : Text) (ts : List Text), ", ".toList.intercalate (t :: ts) = t ++ (ts.map (", ".toList ++ ·)).flatten := by
      intro t ts
      induction ts generalizing t with
      | nil => simp [List.intercalate]
      | cons u ts ih =>
        have : ", ".toList.intercalate (t :: u :: ts) = t ++ (", ".toList ++ ", ".toList.intercalate (u :: ts)) := by
          simp [List.intercalate, List.intersperse]
        rw [this, ih]
        simp
    rw [this]
    simp [tupleText]

/-- C133. What `repr` of every script is. -/
theorem C133_script (s : Script) (r : Except Err Text) : s.repr = r ↔ ScriptPrinted s r := by
  refine graph (f := Script.repr) (R := ScriptPrinted) ?_ ?_ s r
  · rintro s _ (h | h | ⟨h, hl⟩)
    · unfold Script.repr; rw [(reprs_each _ _).2 h]; rfl
    · unfold Script.repr; rw [(reprs_each _ _).2 h]; rfl
    · unfold Script.repr; rw [(reprs_each _ _).2 h, Except.map, tuple_many _ hl]
  · intro s
    cases h : Script.reprs s.instructions with
    | error e => exact ⟨_, .refused ((reprs_each _ _).1 h)⟩
    | ok ts =>
      have h := (reprs_each _ _).1 h
      match ts, h with
      | [t], h => exact ⟨_, .one h⟩
      | [], h => exact ⟨_, .other h (by simp)⟩
      | _ :: _ :: _, h => exact ⟨_, .other h (by simp)⟩

/-! ## Equality -/

/-- The same opcode and the same bytes. -/
def SameInstruction (i j : Instruction) : Prop := i.opcode.number = j.opcode.number ∧ i.data.map Data.val = j.data.map Data.val

/-- The same instructions in the same order; the class does not count. -/
def SameScript (s t : Script) : Prop := List.Forall₂ SameInstruction s.instructions t.instructions

def SameInput (i j : Input) : Prop :=
  i.txId = j.txId ∧ i.txoIndex = j.txoIndex ∧ SameScript i.script j.script ∧ i.seqNumber = j.seqNumber

def SameOutput (o p : Output) : Prop := o.amount = p.amount ∧ SameScript o.script p.script

def SameTransaction (t u : Transaction) : Prop :=
  List.Forall₂ SameInput t.inputs u.inputs ∧ List.Forall₂ SameOutput t.outputs u.outputs ∧ t.lockTime = u.lockTime ∧
    t.version = u.version

theorem forall₂_zip {α : Type} {R : α → α → Prop} {f : α → α → Bool} (hf : ∀ x y, f x y = true ↔ R x y) (xs ys : List α) :
    (xs.length == ys.length && (xs.zip ys).all fun p => f p.1 p.2) = true ↔ List.Forall₂ R xs ys := by
  induction xs generalizing ys with
  | nil => cases ys <;> simp
  | cons x xs ih =>
    cases ys with
    | nil => simp
    | cons y ys =>
      rw [List.forall₂_cons, ← ih, ← hf]
      simp only [List.length_cons, List.zip_cons_cons, List.all_cons, Bool.and_eq_true, beq_iff_eq, Nat.add_right_cancel_iff]
      exact ⟨fun ⟨a, b, c⟩ => ⟨b, a, c⟩, fun ⟨b, a, c⟩ => ⟨a, b, c⟩⟩

/-- C133. What `==` compares. -/
theorem C133_equal :
    (∀ i j : Instruction, i.eq j = true ↔ SameInstruction i j) ∧ (∀ s t : Script, s.eq t = true ↔ SameScript s t) ∧
    (∀ i j : Input, i.eq j = true ↔ SameInput i j) ∧ (∀ o p : Output, o.eq p = true ↔ SameOutput o p) ∧
    (∀ t u : Transaction, t.eq u = true ↔ SameTransaction t u) := by
  have h1 : ∀ i j : Instruction, i.eq j = true ↔ SameInstruction i j := C124_equal
  have h2 : ∀ s t : Script, s.eq t = true ↔ SameScript s t := fun s t => forall₂_zip (f := Instruction.eq) h1 _ _
  have h3 : ∀ i j : Input, i.eq j = true ↔ SameInput i j := by
    intro i j
    unfold Input.eq SameInput
    rw [← h2]
    simp only [Bool.and_eq_true, beq_iff_eq, and_assoc]
  have h4 : ∀ o p : Output, o.eq p = true ↔ SameOutput o p := by
    intro o p
    unfold Output.eq SameOutput
    rw [← h2]
    simp only [Bool.and_eq_true, beq_iff_eq]
  refine ⟨h1, h2, h3, h4, fun t u => ?_⟩
  unfold Transaction.eq SameTransaction
  rw [← forall₂_zip h3, ← forall₂_zip h4]
  simp only [Bool.and_eq_true, and_assoc, beq_iff_eq]

/-! ## Hashes -/

/-- The hash of an instruction: of the number and the bytes; a bytearray has none. -/
inductive InstructionHashed (P : PyHash) (i : Instruction) : Except Err Int → Prop
  | plain : i.data = none → InstructionHashed P i (.ok (P.tuple [P.int i.opcode.number.val, P.none]))
  | data {b} : i.data = some ⟨.str, b⟩ → InstructionHashed P i (.ok (P.tuple [P.int i.opcode.number.val, P.bytes b]))
  | mutable {b} : i.data = some ⟨.bytearray, b⟩ → InstructionHashed P i (.error .typeError)

/-- The hash of a tuple of things. -/
inductive TupleHashed {α : Type} (P : PyHash) (R : α → Except Err Int → Prop) (xs : List α) : Except Err Int → Prop
  | all {hs} : EachMade R xs (.ok hs) → TupleHashed P R xs (.ok (P.tuple hs))
  | refused {e} : EachMade R xs (.error e) → TupleHashed P R xs (.error e)

inductive ScriptHashed (P : PyHash) (s : Script) : Except Err Int → Prop
  | all {h} : TupleHashed P (InstructionHashed P) s.instructions (.ok h) → ScriptHashed P s (.ok (P.tuple [h]))
  | refused {e} : TupleHashed P (InstructionHashed P) s.instructions (.error e) → ScriptHashed P s (.error e)

inductive InputHashed (P : PyHash) (i : Input) : Except Err Int → Prop
  | all {h} : ScriptHashed P i.script (.ok h) →
      InputHashed P i (.ok (P.tuple [P.text i.txId, P.int i.txoIndex, h, P.int i.seqNumber]))
  | refused {e} : ScriptHashed P i.script (.error e) → InputHashed P i (.error e)

inductive OutputHashed (P : PyHash) (o : Output) : Except Err Int → Prop
  | all {h} : ScriptHashed P o.script (.ok h) → OutputHashed P o (.ok (P.tuple [P.int o.amount, h]))
  | refused {e} : ScriptHashed P o.script (.error e) → OutputHashed P o (.error e)

inductive TransactionHashed (P : PyHash) (t : Transaction) : Except Err Int → Prop
  | all {h k} : TupleHashed P (InputHashed P) t.inputs (.ok h) → TupleHashed P (OutputHashed P) t.outputs (.ok k) →
      TransactionHashed P t (.ok (P.tuple [h, k, P.int t.lockTime, P.int t.version]))
  | inputs {e} : TupleHashed P (InputHashed P) t.inputs (.error e) → TransactionHashed P t (.error e)
  | outputs {h e} : TupleHashed P (InputHashed P) t.inputs (.ok h) → TupleHashed P (OutputHashed P) t.outputs (.error e) →
      TransactionHashed P t (.error e)

theorem go_each {α : Type} {R : α → Except Err Int → Prop} {f : α → Except Err Int} (hf : ∀ x r, f x = r ↔ R x r) (xs : List α)
    (r : Except Err (List Int)) : PyHash.ofTuple.go (xs.map f) = r ↔ EachMade R xs r :=
  each_graph (g := fun xs => PyHash.ofTuple.go (xs.map f)) hf rfl
    (fun x xs e h => by simp only [List.map_cons, h, PyHash.ofTuple.go])
    (fun x xs y e h h' => by simp only [List.map_cons, h, PyHash.ofTuple.go, h'])
    (fun x xs y ys h h' => by simp only [List.map_cons, h, PyHash.ofTuple.go, h']) xs r

theorem tuple_graph {α : Type} (P : PyHash) {R : α → Except Err Int → Prop} {f : α → Except Err Int} (hf : ∀ x r, f x = r ↔ R x r)
    (xs : List α) (r : Except Err Int) : P.ofTuple (xs.map f) = r ↔ TupleHashed P R xs r := by
  refine graph (f := fun xs => P.ofTuple (xs.map f)) (R := TupleHashed P R) ?_ ?_ xs r
  · rintro xs _ (h | h)
    · show (PyHash.ofTuple.go (xs.map f)).map P.tuple = _
      rw [(go_each hf _ _).2 h]; rfl
    · show (PyHash.ofTuple.go (xs.map f)).map P.tuple = _
      rw [(go_each hf _ _).2 h]; rfl
  · intro xs
    cases h : PyHash.ofTuple.go (xs.map f) with
    | ok hs => exact ⟨_, .all ((go_each hf _ _).1 h)⟩
    | error e => exact ⟨_, .refused ((go_each hf _ _).1 h)⟩

theorem instruction_hash (P : PyHash) (i : Instruction) (r : Except Err Int) : i.hash P = r ↔ InstructionHashed P i r := by
  refine graph (f := fun i : Instruction => i.hash P) (R := InstructionHashed P) ?_ ?_ i r
  · rintro ⟨o, d⟩ _ (h | h | h) <;> cases h <;> rfl
  · rintro ⟨o, _ | ⟨k, b⟩⟩
    · exact ⟨_, .plain rfl⟩
    · cases k
      · exact ⟨_, .data rfl⟩
      · exact ⟨_, .mutable rfl⟩

theorem script_hash (P : PyHash) (s : Script) (r : Except Err Int) : s.hash P = r ↔ ScriptHashed P s r := by
  have hg := tuple_graph P (instruction_hash P)
  refine graph (f := fun s : Script => s.hash P) (R := ScriptHashed P) ?_ ?_ s r
  · rintro s _ (h | h)
    · simp only [Script.hash]; rw [(hg _ _).2 h]; rfl
    · simp only [Script.hash]; rw [(hg _ _).2 h]; rfl
  · intro s
    cases h : P.ofTuple (s.instructions.map fun i => i.hash P) with
    | ok hs => exact ⟨_, .all ((hg _ _).1 h)⟩
    | error e => exact ⟨_, .refused ((hg _ _).1 h)⟩

theorem input_hash (P : PyHash) (i : Input) (r : Except Err Int) : i.hash P = r ↔ InputHashed P i r := by
  refine graph (f := fun i : Input => i.hash P) (R := InputHashed P) ?_ ?_ i r
  · rintro s _ (h | h)
    · simp only [Input.hash]; rw [(script_hash _ _ _).2 h]; rfl
    · simp only [Input.hash]; rw [(script_hash _ _ _).2 h]; rfl
  · intro s
    cases h : s.script.hash P with
    | ok hs => exact ⟨_, .all ((script_hash _ _ _).1 h)⟩
    | error e => exact ⟨_, .refused ((script_hash _ _ _).1 h)⟩

theorem output_hash (P : PyHash) (o : Output) (r : Except Err Int) : o.hash P = r ↔ OutputHashed P o r := by
  refine graph (f := fun o : Output => o.hash P) (R := OutputHashed P) ?_ ?_ o r
  · rintro s _ (h | h)
    · simp only [Output.hash]; rw [(script_hash _ _ _).2 h]; rfl
    · simp only [Output.hash]; rw [(script_hash _ _ _).2 h]; rfl
  · intro s
    cases h : s.script.hash P with
    | ok hs => exact ⟨_, .all ((script_hash _ _ _).1 h)⟩
    | error e => exact ⟨_, .refused ((script_hash _ _ _).1 h)⟩

/-- C133. What `hash` of every instruction, script, input, output and transaction is, in terms of the hashes of the values
in it. -/
theorem C133_hash (P : PyHash) (r : Except Err Int) :
    (∀ i : Instruction, i.hash P = r ↔ InstructionHashed P i r) ∧ (∀ s : Script, s.hash P = r ↔ ScriptHashed P s r) ∧
    (∀ i : Input, i.hash P = r ↔ InputHashed P i r) ∧ (∀ o : Output, o.hash P = r ↔ OutputHashed P o r) ∧
    (∀ t : Transaction, t.hash P = r ↔ TransactionHashed P t r) := by
  refine ⟨fun i => instruction_hash P i r, fun s => script_hash P s r, fun i => input_hash P i r, fun o => output_hash P o r, ?_⟩
  have hi := tuple_graph P (input_hash P)
  have ho := tuple_graph P (output_hash P)
  intro t
  refine graph (f := fun t : Transaction => t.hash P) (R := TransactionHashed P) ?_ ?_ t r
  · rintro t _ (⟨h, k⟩ | h | ⟨h, k⟩)
    · simp only [Transaction.hash]; rw [(hi _ _).2 h, (ho _ _).2 k]; rfl
    · simp only [Transaction.hash]; rw [(hi _ _).2 h]; rfl
    · simp only [Transaction.hash]; rw [(hi _ _).2 h, (ho _ _).2 k]; rfl
  · intro t
    cases h : P.ofTuple (t.inputs.map fun i => i.hash P) with
    | error e => exact ⟨_, .inputs ((hi _ _).1 h)⟩
    | ok x =>
      cases k : P.ofTuple (t.outputs.map fun i => i.hash P) with
      | error e => exact ⟨_, .outputs ((hi _ _).1 h) ((ho _ _).1 k)⟩
      | ok y => exact ⟨_, .all ((hi _ _).1 h) ((ho _ _).1 k)⟩

/-! ## The text of a URI -/

/-- A text has a character that is not ASCII. -/
def Foreign (t : Text) : Prop := ∃ c ∈ t, 128 ≤ c.toNat

/-- An entry that `urlencode` cannot write. -/
def ForeignEntry (k : Text) (v : Value) : Prop := Foreign k ∨ ∃ t, v = .text t ∧ Foreign t

theorem ascii_cases' (t : Text) : AsciiText t ∧ ¬ Foreign t ∧ asciiText t = .ok t ∨
    ¬ AsciiText t ∧ Foreign t ∧ asciiText t = .error .unicodeEncodeError := by
  by_cases h : AsciiText t
  · exact .inl ⟨h, fun ⟨c, hc, h2⟩ => absurd (h c hc) (by omega), asciiText_ok h⟩
  · right
    have hf : Foreign t := by
      by_contra hn
      exact h fun c hc => by by_contra h2; exact hn ⟨c, hc, by omega⟩
    refine ⟨h, hf, ?_⟩
    unfold asciiText
    rw [if_neg]
    intro ha
    exact h fun c hc => by simpa using (List.all_eq_true.1 ha) c hc

theorem digitChar_ascii (d : Nat) : (digitChar d).toNat < 128 := by
  have : ∀ n : Fin 10, (Char.ofNat (48 + n.val)).toNat < 128 := by decide
  exact this ⟨d % 10, Nat.mod_lt _ (by norm_num)⟩

theorem ascii_append {s t : Text} (hs : AsciiText s) (ht : AsciiText t) : AsciiText (s ++ t) := by
  intro c hc
  rcases List.mem_append.1 hc with h | h
  exacts [hs c h, ht c h]

theorem ascii_cons {c : Char} {t : Text} (hc : c.toNat < 128) (ht : AsciiText t) : AsciiText (c :: t) := by
  intro x hx
  rcases List.mem_cons.1 hx with rfl | h
  exacts [hc, ht x h]

theorem ascii_sub {s t : Text} (h : ∀ c ∈ s, c ∈ t) (ht : AsciiText t) : AsciiText s := fun c hc => ht c (h c hc)

theorem fixedDigits_ascii (k d : Nat) : AsciiText (fixedDigits k d) := by
  induction k generalizing d with
  | zero => intro c hc; cases hc
  | succ k ih => exact ascii_append (ih _) (ascii_cons (digitChar_ascii d) fun c hc => by cases hc)

theorem stripZeros_ascii {t : Text} (h : AsciiText t) : AsciiText (stripZeros t) := by
  refine ascii_sub (fun c hc => ?_) h
  unfold stripZeros at hc
  rw [List.mem_reverse] at hc
  exact List.mem_reverse.1 ((List.dropWhile_suffix _).subset hc)

theorem replicate_ascii (n : Nat) : AsciiText (List.replicate n '0') := fun c hc => by
  rw [List.eq_of_mem_replicate hc]; decide

theorem layout_ascii {s : Text} (h : AsciiText s) (p : Int) : AsciiText (layout s p) := by
  unfold layout
  have nil : AsciiText [] := fun c hc => by cases hc
  have tk : ∀ n, AsciiText (s.take n) := fun n => ascii_sub (fun c hc => List.mem_of_mem_take hc) h
  have dr : ∀ n, AsciiText (s.drop n) := fun n => ascii_sub (fun c hc => List.mem_of_mem_drop hc) h
  have ex : AsciiText (exponentText (p - 1)) := by
    unfold exponentText
    refine ascii_cons ?_ (fixedDigits_ascii _ _)
    split <;> decide
  split
  · refine ascii_append ?_ (ascii_cons (by decide) ex)
    match s, h with
    | [], _ => exact nil
    | [c], h => exact h
    | c :: d :: r, h =>
      exact ascii_cons (h c (by simp)) (ascii_cons (by decide) (ascii_sub (fun x hx => List.mem_cons_of_mem _ hx) h))
  split
  · exact ascii_cons (by decide) (ascii_cons (by decide) (ascii_append (replicate_ascii _) h))
  split
  · exact ascii_append (ascii_append h (replicate_ascii _)) (by unfold AsciiText; decide)
  · exact ascii_append (tk _) (ascii_cons (by decide) (dr _))

theorem floatText_ascii (f : Float64) : AsciiText (floatText f) := by
  have pos : ∀ q, AsciiText (positiveText q) := fun q => layout_ascii (stripZeros_ascii (fixedDigits_ascii _ _)) _
  unfold floatText
  cases f with
  | fin q =>
    simp only
    split
    · unfold AsciiText; decide
    split
    · exact pos _
    · exact ascii_cons (by decide) (pos _)
  | inf n => cases n <;> (unfold AsciiText; decide)
  | nan => unfold AsciiText; decide

theorem nat_ascii (n : Nat) : AsciiText (Nat.repr n).toList := by
  intro c hc
  have := Nat.isDigit_of_mem_toDigits (b := 10) (n := n) (by norm_num) (by norm_num) (by simpa [Nat.repr] using hc)
  simp only [Char.isDigit, Bool.and_eq_true, decide_eq_true_eq] at this
  have h2 : c.val ≤ 57 := this.2
  have : c.toNat ≤ 57 := h2
  omega

theorem int_ascii (n : Int) : AsciiText (ToString.toString n).toList := by
  cases n with
  | ofNat n => exact nat_ascii n
  | negSucc n =>
    have : (ToString.toString (Int.negSucc n)).toList = '-' :: (Nat.repr (n + 1)).toList := by
      show ("-" ++ Nat.repr (n + 1)).toList = _
      simp
    rw [this]
    exact ascii_cons (by decide) (nat_ascii _)

theorem str_cases (v : Value) : (∃ s, v.str = .ok s ∧ AsciiText s) ∧ (∀ t, v = .text t → ¬ Foreign t) ∨
    v.str = .error .unicodeEncodeError ∧ ∃ t, v = .text t ∧ Foreign t := by
  cases v with
  | text t =>
    rcases ascii_cases' t with ⟨h1, h2, h3⟩ | ⟨h1, h2, h3⟩
    · exact .inl ⟨⟨t, h3, h1⟩, fun _ h => by cases h; exact h2⟩
    · exact .inr ⟨h3, t, rfl, h2⟩
  | num n =>
    left
    refine ⟨?_, fun _ h => by cases h⟩
    cases n with
    | int n => exact ⟨_, rfl, int_ascii n⟩
    | float f => exact ⟨_, rfl, floatText_ascii f⟩
  | none => exact .inl ⟨⟨_, rfl, by unfold AsciiText; decide⟩, fun _ h => by cases h⟩

theorem items_cases (items : List (Text × Value)) :
    (∃ out q, URI.strItems items = .ok out ∧ urlencode out = .ok q) ∧ (∀ e ∈ items, ¬ ForeignEntry e.1 e.2) ∨
    URI.strItems items = .error .unicodeEncodeError ∧ ∃ e ∈ items, ForeignEntry e.1 e.2 := by
  induction items with
  | nil => exact .inl ⟨⟨[], [], rfl, rfl⟩, fun e he => by cases he⟩
  | cons e items ih =>
    obtain ⟨k, v⟩ := e
    rcases ascii_cases' k with ⟨k1, k2, k3⟩ | ⟨k1, k2, k3⟩
    swap
    · exact .inr ⟨by simp only [URI.strItems, k3]; rfl, _, List.mem_cons_self, .inl k2⟩
    rcases str_cases v with ⟨⟨s, v1, v2⟩, v3⟩ | ⟨v1, v2⟩
    swap
    · exact .inr ⟨by simp only [URI.strItems, k3, v1]; rfl, _, List.mem_cons_self, .inr v2⟩
    rcases ih with ⟨⟨out, q, h1, h2⟩, h3⟩ | ⟨h1, e, he, h2⟩
    · left
      refine ⟨⟨(k, s) :: out, _, by simp only [URI.strItems, k3, v1, h1]; rfl, by simp only [urlencode, k3, asciiText_ok v2, h2]; rfl⟩,
        ?_⟩
      intro e he
      rcases List.mem_cons.1 he with rfl | he
      · rintro (h | ⟨t, ht, h⟩)
        exacts [k2 h, v3 t ht h]
      · exact h3 e he
    · exact .inr ⟨by simp only [URI.strItems, k3, v1, h1]; rfl, e, List.mem_cons_of_mem _ he, h2⟩

/-- C133. When `to_uri` raises: exactly if a name or a text that is to be shown is not ASCII (UnicodeEncodeError), and
otherwise if the address has no text; `repr` raises the same. -/
theorem C133_uri (H : Hashes) (u : URI) (h : Regular u) (e : Err) :
    (u.toUri H = .error e ↔ (e = .unicodeEncodeError ∧ ∃ k v, Shown u k v ∧ ForeignEntry k v) ∨
      ((∀ k v, Shown u k v → ¬ ForeignEntry k v) ∧ u.address.toString H = .error e)) ∧
    (u.repr H = .error e ↔ u.toUri H = .error e) ∧
    ∀ t, u.repr H = .ok t ↔ ∃ s, u.toUri H = .ok s ∧ t = "<URI: ".toList ++ s ++ ">".toList := by
  have hmem : ∀ k v, (k, v) ∈ sortByKey u.query ↔ Shown u k v := fun k v =>
    (sortByKey_perm _).mem_iff.trans (mem_query h.names k v)
  refine ⟨?_, ?_, ?_⟩
  · rcases items_cases (sortByKey u.query) with ⟨⟨out, q, h1, h2⟩, h3⟩ | ⟨h1, ⟨k, v⟩, he, h2⟩
    · have h3 : ∀ k v, Shown u k v → ¬ ForeignEntry k v := fun k v hs => h3 (k, v) ((hmem k v).2 hs)
      unfold URI.toUri
      simp only [h1, h2, bind, Except.bind]
      constructor
      · intro hx
        refine .inr ⟨h3, ?_⟩
        cases ha : u.address.toString H with
        | error x => rw [ha] at hx; simp only at hx; rw [← hx]
        | ok x => rw [ha] at hx; cases hx
      · rintro (⟨-, k, v, hs, hf⟩ | ⟨-, ha⟩)
        · exact absurd hf (h3 k v hs)
        · rw [ha]
    · unfold URI.toUri
      simp only [h1, bind, Except.bind]
      constructor
      · intro hx
        cases hx
        exact .inl ⟨rfl, k, v, (hmem k v).1 he, h2⟩
      · rintro (⟨rfl, -⟩ | ⟨hn, -⟩)
        · rfl
        · exact absurd h2 (hn k v ((hmem k v).1 he))
  · unfold URI.repr
    cases u.toUri H <;> simp [Except.map]
  · intro t
    unfold URI.repr
    cases u.toUri H <;> simp [Except.map, eq_comm]

/-- C133. The address of a known network has a text, so that a URI that the library made is refused only for its texts. -/
theorem C133_uri_made (H : Hashes) (x : UriArg) (hx : ∀ am d, x = .dict am d → Dict.Unique d) (u : URI)
    (h : URI.new H x = .ok u) (e : Err) :
    u.toUri H = .error e ↔ e = .unicodeEncodeError ∧ ∃ k v, Shown u k v ∧ ForeignEntry k v := by
  have hb : ∀ am d, URI.buildFromDict H am d = .ok u → ∃ t, Address.fromString H t = .ok u.address := by
    intro am d hu
    unfold URI.buildFromDict at hu
    simp only [bind, Except.bind] at hu
    split at hu
    · cases hu
    rename_i a _
    split at hu
    · cases hu
    rename_i address ha
    have hu' : u.address = address := by
      cases am with
      | none => injection hu with hu; rw [← hu]
      | some n =>
        simp only at hu
        split at hu
        · cases hu
        · injection hu with hu; rw [← hu]
    rw [hu']
    cases a with
    | text t => exact ⟨t, ha⟩
    | num n => cases ha
    | none => cases ha
  have ht : ∃ t, Address.fromString H t = .ok u.address := by
    unfold URI.new at h
    split at h
    · simp only [bind, Except.bind] at h
      split at h
      · cases h
      split at h
      · cases h
      exact hb _ _ h
    · exact hb _ _ h
    · cases h
  obtain ⟨t, ht⟩ := ht
  have hs := (C16_canonical H [] t u.address).2 ht
  rw [(C133_uri H u (C86_regular H x hx u h) e).1]
  constructor
  · rintro (h | ⟨-, h⟩)
    · exact h
    · rw [hs] at h; cases h
  · exact .inl

/-! ## Examples -/

/-- A push without data, one of an opcode without a name, and one of each kind that prints. -/
example : (Instruction.mk ⟨2⟩ none).repr = .error .typeError ∧ (Instruction.mk ⟨200⟩ none).repr = .error .keyError ∧
    (Instruction.mk ⟨172⟩ none).repr = .ok "<Instruction: OP_CHECKSIG>".toList ∧
    (Instruction.mk ⟨2⟩ (some ⟨.str, [171, 5]⟩)).repr = .ok "<Instruction: _PUSH_2_BYTES 'ab05'>".toList := by decide +kernel

example : (Script.mk .generic [⟨⟨172⟩, none⟩]).repr = .ok "(<Instruction: OP_CHECKSIG>,)".toList ∧
    (Script.mk .generic [⟨⟨172⟩, none⟩, ⟨⟨105⟩, none⟩]).repr =
      .ok "(<Instruction: OP_CHECKSIG>, <Instruction: OP_VERIFY>)".toList ∧
    (Script.mk .generic []).repr = .ok "()".toList := by decide +kernel

/-- Equal scripts of different classes with data of different kinds. -/
example : SameScript ⟨.generic, [⟨⟨1⟩, some ⟨.str, [7]⟩⟩]⟩ ⟨.opReturnOut, [⟨⟨1⟩, some ⟨.bytearray, [7]⟩⟩]⟩ :=
  .cons ⟨rfl, rfl⟩ .nil

/-- A text that cannot be shown. -/
example : ForeignEntry "label".toList (.text "é".toList) ∧ ¬ ForeignEntry "label".toList (.num (.int 7)) :=
  ⟨.inr ⟨_, rfl, 'é', by decide, by decide⟩, by rintro (⟨c, hc, h⟩ | ⟨t, h, -⟩) <;> [(revert hc h; revert c; decide); cases h]⟩

end Bitforge.Prints
