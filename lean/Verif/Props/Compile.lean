import Verif.Props.SignTx
import Verif.Props.Create

/-! # C93: `Script.compile` -/

namespace Bitforge
open Spec

/-- The data that an element of a tuple is. -/
def SchemArg.Is : SchemArg → Option Data → Prop
  | .none, d => d = Option.none
  | .data x, d => d = some x
  | _, _ => False

/-- The instruction that an element of a schematic stands for. -/
def SchemItem.Denotes (x : SchemItem) (i : Instruction) : Prop := Wf (i.opcode.number, i.data.map Data.val) ∧ match x with
  | .opcode o => i = ⟨o, none⟩
  | .number n => (i.opcode.number.val : Int) = n ∧ i.data = none
  | .bytes d => d.kind = .str ∧ i.data = some d ∧ (i.opcode.number, some d.val) = pushOf d.val
  | .tuple l => (∃ o, l = [.opcode o] ∧ i = ⟨o, none⟩) ∨ (∃ o a, l = [.opcode o, a] ∧ i.opcode = o ∧ a.Is i.data) ∨
      ∃ n a rest, l = .number n :: a :: rest ∧ (i.opcode.number.val : Int) = n ∧ a.Is i.data
  | .other => False

/-- What is raised for an opcode and data that do not go together. -/
def mismatch (op : Byte) (d : Option Data) : Err := match pushKind op, d with
  | .plain, _ => if Named op then .insUnexpectedData else .keyError
  | _, none => .typeError
  | _, some _ => .insInvalidDataLength

/-- The same for an element of a tuple as the data: only data have a length. -/
def SchemArg.mismatch (op : Byte) : SchemArg → Err
  | .none => Bitforge.mismatch op Option.none
  | .data d => Bitforge.mismatch op (some d)
  | _ => match pushKind op with
    | .plain => if Named op then .insUnexpectedData else .keyError
    | _ => .typeError

/-- What is raised for a tuple that does not begin with an Opcode: for a first element that is no number of an opcode, then
for the missing second one. -/
def refuseTuple (head : SchemArg) (rest : List SchemArg) : Err := match head, rest with
  | .number n, rest => if 0 ≤ n ∧ n ≤ 255 then
      (match rest with
        | [] => .indexError
        | a :: _ => a.mismatch (Fin.ofNat 256 n.toNat))
      else .opUnknownNumber
  | .data d, _ => if ∀ c ∈ d.val, c.val < 128 then .opUnknownNumber else .unicodeDecodeError
  | _, _ => .opUnknownNumber

/-- What is raised for an element that stands for no instruction. -/
def SchemItem.refusal : SchemItem → Err
  | .opcode o => mismatch o.number none
  | .number n => if 0 ≤ n ∧ n ≤ 255 then mismatch (Fin.ofNat 256 n.toNat) none else .opUnknownNumber
  | .bytes d => if d.kind = .bytearray then .typeError
      else if d.val = [] then .opInvalidConstPushLength else .opInvalidPushLength
  | .tuple [] => .indexError
  | .tuple [.opcode o] => mismatch o.number none
  | .tuple [.opcode o, a] => a.mismatch o.number
  | .tuple (.opcode _ :: _ :: _ :: _) => .typeError
  | .tuple (head :: rest) => refuseTuple head rest
  | .other => .typeError

theorem make_outcome (o : Opcode) (d : Option Data) : (Wf (o.number, d.map Data.val) ∧ Instruction.make o d = .ok ⟨o, d⟩) ∨
    (¬ Wf (o.number, d.map Data.val) ∧ Instruction.make o d = .error (mismatch o.number d)) := by
  by_cases h : Wf (o.number, d.map Data.val)
  · exact .inl ⟨h, (C27_accepts_iff o d _).2 ⟨rfl, h⟩⟩
  · refine .inr ⟨h, ?_⟩
    rw [C27_errors o d h]
    unfold mismatch
    congr 1
    cases pushKind o.number <;> cases d <;> rfl

theorem number_outcome (n : Int) (d : Option Data) :
    (∃ o : Opcode, (o.number.val : Int) = n ∧ Wf (o.number, d.map Data.val) ∧
      (do Instruction.make (← Opcode.make n) d) = .ok ⟨o, d⟩) ∨
    ((∀ o : Opcode, (o.number.val : Int) = n → ¬ Wf (o.number, d.map Data.val)) ∧
      (do Instruction.make (← Opcode.make n) d) =
        .error (if 0 ≤ n ∧ n ≤ 255 then mismatch (Fin.ofNat 256 n.toNat) d else .opUnknownNumber)) := by
  by_cases h : 0 ≤ n ∧ n ≤ 255
  · have e : Opcode.make n = .ok (.num n.toNat) := by
      unfold Opcode.make
      rw [if_neg (by simpa using h)]
    have hv : (((Opcode.num n.toNat).number.val : Nat) : Int) = n := by
      rw [mk_fin n.toNat (by omega)]
      show ((n.toNat : Nat) : Int) = n
      omega
    rw [e, if_pos h]
    have hu : ∀ o : Opcode, (o.number.val : Int) = n → o = .num n.toNat := by
      rintro ⟨b⟩ hb
      rw [mk_fin n.toNat (by omega)]
      congr 1
      apply Fin.ext
      simp only at hb ⊢
      omega
    rcases make_outcome (.num n.toNat) d with ⟨h1, h2⟩ | ⟨h1, h2⟩
    · exact .inl ⟨_, hv, h1, h2⟩
    · refine .inr ⟨fun o ho => by rw [hu o ho]; exact h1, ?_⟩
      exact h2
  · have e : Opcode.make n = .error .opUnknownNumber := by
      unfold Opcode.make
      rw [if_pos (by simpa using h)]
    rw [e, if_neg h]
    exact .inr ⟨fun o ho => absurd (by have := o.number.isLt; omega) h, rfl⟩

theorem makeWith_outcome (o : Opcode) (a : SchemArg) :
    (∃ d, a.Is d ∧ Wf (o.number, d.map Data.val) ∧ Instruction.makeWith o a = .ok ⟨o, d⟩) ∨
      ((∀ d, a.Is d → ¬ Wf (o.number, d.map Data.val)) ∧ Instruction.makeWith o a = .error (a.mismatch o.number)) := by
  have odd : ∀ b : SchemArg, (∀ d, ¬ b.Is d) → b.mismatch o.number = (match pushKind o.number with
      | .plain => if Named o.number then .insUnexpectedData else .keyError
      | _ => .typeError) →
      Instruction.makeWith o b = (if o.isPush then .error .typeError else .error (o.mention .insUnexpectedData)) →
      (∀ d, b.Is d → ¬ Wf (o.number, d.map Data.val)) ∧ Instruction.makeWith o b = .error (b.mismatch o.number) := by
    intro b h1 h2 h3
    refine ⟨fun d h => absurd h (h1 d), ?_⟩
    rw [h3, h2]
    obtain ⟨op⟩ := o
    cases hp : (Opcode.mk op).isPush with
    | false =>
      have hk := (pushKind_plain op).1 hp
      have := (make_outcome ⟨op⟩ (some ⟨.str, []⟩))
      rw [instr_make] at this
      simp only [hk] at this
      rw [if_neg (by simp)]
      rcases this with ⟨_, h⟩ | ⟨_, h⟩
      · cases h
      · rw [h]
        unfold mismatch
        simp only [hk]
    | true =>
      rw [if_pos rfl]
      cases hk : pushKind op with
      | plain => rw [(pushKind_plain op).2 hk] at hp; cases hp
      | _ => rfl
  cases a with
  | none =>
    rcases make_outcome o none with ⟨h1, h2⟩ | ⟨h1, h2⟩
    · exact .inl ⟨none, rfl, h1, h2⟩
    · exact .inr ⟨by rintro d rfl; exact h1, h2⟩
  | data x =>
    rcases make_outcome o (some x) with ⟨h1, h2⟩ | ⟨h1, h2⟩
    · exact .inl ⟨some x, rfl, h1, h2⟩
    · exact .inr ⟨by rintro d rfl; exact h1, h2⟩
  | opcode _ => exact .inr (odd _ (fun _ h => h) rfl rfl)
  | number _ => exact .inr (odd _ (fun _ h => h) rfl rfl)

theorem opcode_number (n : Int) :
    (∃ o, Opcode.make n = .ok o ∧ (o.number.val : Int) = n ∧ 0 ≤ n ∧ n ≤ 255 ∧ o.number = Fin.ofNat 256 n.toNat) ∨
      (¬ (0 ≤ n ∧ n ≤ 255) ∧ Opcode.make n = .error .opUnknownNumber) := by
  by_cases h : 0 ≤ n ∧ n ≤ 255
  · refine .inl ⟨.num n.toNat, ?_, ?_, h.1, h.2, ?_⟩
    · unfold Opcode.make
      rw [if_neg (by simpa using h)]
    · rw [mk_fin n.toNat (by omega)]
      show ((n.toNat : Nat) : Int) = n
      omega
    · rfl
  · refine .inr ⟨h, ?_⟩
    unfold Opcode.make
    rw [if_pos (by simpa using h)]

theorem tuple_outcome (l : List SchemArg) : (∃ i, (SchemItem.tuple l).Denotes i ∧ (SchemItem.tuple l).instruction = .ok i) ∨
    ((∀ i, ¬ (SchemItem.tuple l).Denotes i) ∧ (SchemItem.tuple l).instruction = .error (SchemItem.tuple l).refusal) := by
  match l with
  | [] => exact .inr ⟨by rintro i ⟨-, h⟩; simp at h, rfl⟩
  | [.opcode o] =>
    rcases make_outcome o none with ⟨h1, h2⟩ | ⟨h1, h2⟩
    · exact .inl ⟨_, ⟨h1, .inl ⟨o, rfl, rfl⟩⟩, h2⟩
    · refine .inr ⟨?_, h2⟩
      rintro i ⟨hw, ⟨o', h, rfl⟩ | ⟨o', a, h, -⟩ | ⟨n, a, r, h, -⟩⟩
      · cases h; exact h1 hw
      · cases h
      · cases h
  | [.opcode o, a] =>
    rcases makeWith_outcome o a with ⟨d, h0, h1, h2⟩ | ⟨h1, h2⟩
    · exact .inl ⟨_, ⟨h1, .inr (.inl ⟨o, a, rfl, rfl, h0⟩)⟩, h2⟩
    · refine .inr ⟨?_, h2⟩
      rintro ⟨io, id⟩ ⟨hw, ⟨o', h, -⟩ | ⟨o', a', h, h', h''⟩ | ⟨n, a', r, h, -⟩⟩
      · cases h
      · cases h; cases h'; exact h1 _ h'' hw
      · cases h
  | .opcode o :: a :: b :: r =>
    refine .inr ⟨?_, rfl⟩
    rintro i ⟨-, ⟨o', h, -⟩ | ⟨o', a', h, -⟩ | ⟨n, a', r, h, -⟩⟩ <;> cases h
  | .none :: r =>
    refine .inr ⟨?_, rfl⟩
    rintro i ⟨-, ⟨o', h, -⟩ | ⟨o', a', h, -⟩ | ⟨n, a', r, h, -⟩⟩ <;> cases h
  | .data d :: r =>
    refine .inr ⟨?_, ?_⟩
    · rintro i ⟨-, ⟨o', h, -⟩ | ⟨o', a', h, -⟩ | ⟨n, a', r, h, -⟩⟩ <;> cases h
    · simp only [SchemItem.instruction, SchemItem.refusal, refuseTuple, SchemArg.toOpcode, bind, Except.bind, List.all_eq_true,
        decide_eq_true_eq]
      by_cases h : ∀ c ∈ d.val, c.val < 128
      · simp only [if_pos h]
      · simp only [if_neg h]
  | [.number n] =>
    refine .inr ⟨?_, ?_⟩
    · rintro i ⟨-, ⟨o', h, -⟩ | ⟨o', a', h, -⟩ | ⟨n, a', r, h, -⟩⟩ <;> cases h
    · simp only [SchemItem.instruction, SchemItem.refusal, refuseTuple, SchemArg.toOpcode, bind, Except.bind]
      rcases opcode_number n with ⟨o, h1, -, h2, h3, -⟩ | ⟨h1, h2⟩
      · simp only [h1, if_pos (And.intro h2 h3)]
      · simp only [h2, if_neg h1]
  | .number n :: a :: r =>
    simp only [SchemItem.instruction, SchemItem.refusal, refuseTuple, SchemArg.toOpcode, bind, Except.bind]
    rcases opcode_number n with ⟨o, h1, h0, h2, h3, h4⟩ | ⟨h1, h2⟩
    · simp only [h1, if_pos (And.intro h2 h3), ← h4]
      rcases makeWith_outcome o a with ⟨d, h5, h6, h7⟩ | ⟨h6, h7⟩
      · exact .inl ⟨_, ⟨h6, .inr (.inr ⟨n, a, r, rfl, h0, h5⟩)⟩, h7⟩
      · refine .inr ⟨?_, h7⟩
        rintro ⟨⟨io⟩, id⟩ ⟨hw, ⟨o', h, -⟩ | ⟨o', a', h, -⟩ | ⟨n, a', r, h, h', h''⟩⟩
        · cases h
        · cases h
        · cases h
          have e : io = o.number := Fin.ext (by simp only at h'; omega)
          subst e
          exact h6 _ h'' hw
    · simp only [h2, if_neg h1]
      refine .inr ⟨?_, trivial⟩
      rintro ⟨⟨io⟩, id⟩ ⟨hw, ⟨o', h, -⟩ | ⟨o', a', h, -⟩ | ⟨n, a', r, h, h', h''⟩⟩
      · cases h
      · cases h
      · cases h
        have := io.isLt
        simp only at h'
        omega

theorem item_outcome (x : SchemItem) : (∃ i, x.Denotes i ∧ x.instruction = .ok i) ∨
    ((∀ i, ¬ x.Denotes i) ∧ x.instruction = .error x.refusal) := by
  cases x with
  | opcode o =>
    rcases make_outcome o none with ⟨h1, h2⟩ | ⟨h1, h2⟩
    · exact .inl ⟨_, ⟨h1, rfl⟩, h2⟩
    · exact .inr ⟨by rintro i ⟨hw, rfl⟩; exact h1 hw, h2⟩
  | number n =>
    rcases number_outcome n none with ⟨o, h0, h1, h2⟩ | ⟨h1, h2⟩
    · exact .inl ⟨_, ⟨h1, h0, rfl⟩, h2⟩
    · refine .inr ⟨?_, h2⟩
      rintro ⟨o, d⟩ ⟨hw, h, hd⟩
      simp only at hd
      subst hd
      exact h1 o h hw
  | tuple l => exact tuple_outcome l
  | other => exact .inr ⟨fun i h => h.2, rfl⟩
  | bytes d =>
    obtain ⟨k, b⟩ := d
    cases k with
    | bytearray => 
      refine .inr ⟨?_, rfl⟩
      rintro i ⟨_, hk, _⟩
      cases hk
    | str =>
      by_cases hb : 1 ≤ b.length ∧ b.length < 2 ^ 32
      · obtain ⟨i, hi⟩ := instruction_bytes b hb.1 hb.2
        obtain ⟨_, h2, _, h4⟩ := instruction_bytes_ok _ i hi
        have := push_pushOf b i hi
        refine .inl ⟨i, ⟨h4, rfl, h2, ?_⟩, hi⟩
        rw [← this]
        unfold Instruction.wire
        rw [h2]
        rfl
      · right
        constructor
        · rintro ⟨o, d⟩ ⟨hw, _, hd, he⟩
          simp only at hd he
          subst hd
          simp only [Option.map_some] at hw
          rw [he] at hw
          unfold pushOf at he hw
          by_cases h0 : b.length = 0
          · rw [if_pos h0] at he
            exact absurd (congrArg Prod.snd he) (by simp)
          · rw [if_neg h0, if_neg (by omega), if_neg (by omega), if_neg (by omega)] at hw
            have : b.length < 256 ^ 4 := hw
            omega
        · simp only [SchemItem.instruction, SchemItem.refusal, bind, Except.bind]
          rw [pushFor_table]
          by_cases h0 : b.length = 0
          · rw [if_pos (by omega), if_neg (by simp), if_pos (List.length_eq_zero_iff.1 h0)]
          · rw [if_neg (by omega), if_neg (by omega), if_neg (by omega), if_neg (by omega), if_neg (by omega),
              if_neg (by simp), if_neg (by simpa using h0)]

theorem denotes_unique {x : SchemItem} {i j : Instruction} (h : x.Denotes i) (h' : x.Denotes j) : i = j := by
  obtain ⟨o, d⟩ := i
  obtain ⟨o', d'⟩ := j
  have num : ∀ n : Int, (o.number.val : Int) = n → (o'.number.val : Int) = n → o = o' := by
    intro n h1 h2
    obtain ⟨b⟩ := o
    obtain ⟨b'⟩ := o'
    congr 1
    apply Fin.ext
    simp only at h1 h2
    omega
  cases x with
  | opcode => exact h.2.trans h'.2.symm
  | tuple l =>
    have is : ∀ {a : SchemArg} {e e'}, a.Is e → a.Is e' → e = e' := by
      intro a e e' g g'
      cases a <;> simp only [SchemArg.Is] at g g'
      · rw [g, g']
      · rw [g, g']
    rcases h.2 with ⟨p, hl, hi⟩ | ⟨p, a, hl, hi, ha⟩ | ⟨n, a, r, hl, hi, ha⟩
    · rcases h'.2 with ⟨q, hm, hj⟩ | ⟨q, b, hm, -⟩ | ⟨m, b, s, hm, -⟩
      · cases hl.symm.trans hm; rw [hi, hj]
      · cases hl.symm.trans hm
      · cases hl.symm.trans hm
    · rcases h'.2 with ⟨q, hm, -⟩ | ⟨q, b, hm, hj, hb⟩ | ⟨m, b, s, hm, -⟩
      · cases hl.symm.trans hm
      · cases hl.symm.trans hm
        simp only at hi hj ha hb
        rw [hi, hj, is ha hb]
      · cases hl.symm.trans hm
    · rcases h'.2 with ⟨q, hm, -⟩ | ⟨q, b, hm, -⟩ | ⟨m, b, s, hm, hj, hb⟩
      · cases hl.symm.trans hm
      · cases hl.symm.trans hm
      · cases hl.symm.trans hm
        rw [num _ hi hj, show d = d' from is ha hb]
  | other => exact h.2.elim
  | number => rw [num _ h.2.1 h'.2.1, show d = none from h.2.2, show d' = none from h'.2.2]
  | bytes e =>
    rw [show d = some e from h.2.2.1, show d' = some e from h'.2.2.1]
    obtain ⟨b⟩ := o
    obtain ⟨b'⟩ := o'
    have := h.2.2.2.trans h'.2.2.2.symm
    simp only [Prod.mk.injEq, and_true] at this
    rw [this]

theorem toInstructions_denotes : ∀ (l : List SchemItem) (is : List Instruction),
    toInstructions l = .ok is ↔ List.Forall₂ SchemItem.Denotes l is
  | [], is => by
    simp only [toInstructions, Except.ok.injEq, List.forall₂_nil_left_iff]
    exact eq_comm
  | x :: l, is => by
    rw [toInstructions_cons]
    constructor
    · rintro ⟨i, js, h1, h2, rfl⟩
      rcases item_outcome x with ⟨i', hd, hi⟩ | ⟨_, he⟩
      · rw [h1] at hi
        cases hi
        exact .cons hd ((toInstructions_denotes l js).1 h2)
      · rw [h1] at he
        cases he
    · intro h
      obtain ⟨i, js, hd, hr, rfl⟩ := List.forall₂_cons_left_iff.1 h
      rcases item_outcome x with ⟨i', hd', hi⟩ | ⟨hn, _⟩
      · refine ⟨i, js, ?_, (toInstructions_denotes l js).2 hr, rfl⟩
        rw [hi, denotes_unique hd hd']
      · exact absurd hd (hn i)

/-- C93, part that holds: `compile` returns a script exactly if each element of the schematic stands for an instruction
and no script of that shape makes the classifier raise; the script is those instructions, of the class of the template
that they match.  Missing: the other shapes (see the refutation). -/
theorem C93_compile_partial (l : List SchemItem) (s : Script) : Script.compile l = .ok s ↔
    List.Forall₂ SchemItem.Denotes l s.instructions ∧ ¬ s.Trips ∧ ∀ t, s.cls.template = some t ↔ s.Is t := by
  unfold Script.compile
  cases h : toInstructions l with
  | error e =>
    simp only [reduceCtorEq, false_iff, not_and]
    intro h'
    rw [(toInstructions_denotes l _).2 h'] at h
    cases h
  | ok is =>
    simp only [Script.create]
    have hd := (toInstructions_denotes l is).1 h
    rcases classify_spec is with ⟨hc, he⟩ | ⟨hc, c, he, hm⟩
    · rw [he]
      simp only [reduceCtorEq, false_iff, not_and]
      intro h'
      rw [(toInstructions_denotes l _).2 h'] at h
      cases h
      exact fun hn => absurd hc hn
    · rw [he]
      simp only [Except.ok.injEq]
      constructor
      · rintro rfl
        exact ⟨hd, hc, hm⟩
      · rintro ⟨h1, h2, h3⟩
        rw [(toInstructions_denotes l _).2 h1] at h
        cases h
        obtain ⟨c', is⟩ := s
        simp only at *
        congr 1
        have : ∀ t, c.template = some t ↔ c'.template = some t := fun t => (hm t).trans (h3 t).symm
        have inj : ∀ c c' : ScriptClass, c.template = c'.template → c = c' := by
          intro c c'
          cases c <;> cases c' <;> simp [ScriptClass.template]
        exact inj _ _ (Option.ext this)

/-- C93. What is raised otherwise: the first element that stands for no instruction decides. -/
theorem C93_refusals (pre : List SchemItem) (x : SchemItem) (post : List SchemItem) (is : List Instruction)
    (hp : List.Forall₂ SchemItem.Denotes pre is) (hx : ∀ i, ¬ x.Denotes i) :
    Script.compile (pre ++ x :: post) = .error x.refusal := by
  have : toInstructions (pre ++ x :: post) = .error x.refusal := by
    induction hp with
    | nil =>
      rcases item_outcome x with ⟨i, hi, _⟩ | ⟨_, he⟩
      · exact absurd hi (hx i)
      · simp only [List.nil_append, toInstructions, he]
    | @cons y i pre is hd _ ih =>
      rcases item_outcome y with ⟨i, _, hi⟩ | ⟨hn, _⟩
      · simp only [List.cons_append, toInstructions, hi, ih]
      · exact absurd hd (hn i)
  unfold Script.compile
  rw [this]

/-- C93 is false of the code: for a schematic that stands for a script that makes the classifier raise, such as one of
four pushes, `compile` raises AttributeError. -/
theorem C93_shape_refuted (l : List SchemItem) (is : List Instruction) (h : List.Forall₂ SchemItem.Denotes l is)
    (hc : Crashes (shape (is.map Instruction.wire))) : Script.compile l = .error .attributeError := by
  unfold Script.compile
  rw [(toInstructions_denotes l is).2 h]
  rcases classify_spec is with ⟨_, he⟩ | ⟨hn, _⟩
  · simp only [Script.create, he]
  · exact absurd hc hn

/-- C93. An empty byte string is refused: it has an instruction, OP_0, but `compile` does not use it. -/
theorem C93_empty_refuted (pre post : List SchemItem) (is : List Instruction)
    (hp : List.Forall₂ SchemItem.Denotes pre is) :
    Script.compile (pre ++ .bytes ⟨.str, []⟩ :: post) = .error .opInvalidConstPushLength ∧ pushOf [] = (0, none) := by
  refine ⟨C93_refusals pre _ post is hp ?_, rfl⟩
  rintro i ⟨_, _, _, h⟩
  exact absurd (congrArg Prod.snd h) (by simp [pushOf])

/-- C93. What a template class makes of a schematic, `compile` makes too, if the script matches the template. -/
theorem C93_templates (c : ScriptClass) (t : Template) (l : List SchemItem) (s : Script) (hc : c.template = some t)
    (h : ofSchematic c l = .ok s) (hs : s.Is t) : Script.compile l = .ok s := by
  obtain ⟨rfl, hi⟩ := ofSchematic_ok _ _ _ h
  obtain ⟨c', hcr, ht⟩ := create_template s t hs
  unfold Script.compile
  rw [hi]
  simp only []
  rw [hcr]
  have inj : ∀ c c' : ScriptClass, c.template = c'.template → c = c' := by
    intro c c'
    cases c <;> cases c' <;> simp [ScriptClass.template]
  rw [inj c' s.cls (ht.trans hc.symm)]

/-- C28. `to_hex` of a script, for the scripts that have a binary form: the hexadecimal text of that form. -/
theorem C28_hex_partial (s : Script) (hw : s.WellFormed)
    (hp : ∀ i ∈ s.instructions, ¬ (76 ≤ i.opcode.number.val ∧ i.opcode.number.val ≤ 78)) :
    ∃ b, Encodes (s.instructions.map Instruction.wire) b ∧ s.toHex = .ok (hexText b) ∧
      decodeHex (hexText b) = .ok b := by
  obtain ⟨b, hb, he, _⟩ := C28_roundtrip_partial s hw hp
  exact ⟨b, he, by unfold Script.toHex; rw [hb, hexText_eq]; rfl, by rw [hexText_eq, decodeHex_encodeHex]⟩

theorem C28_hex_refuted (s : Script) (hw : s.WellFormed)
    (hp : ∃ i ∈ s.instructions, 76 ≤ i.opcode.number.val ∧ i.opcode.number.val ≤ 78) :
    s.toHex = .error .typeError := by
  unfold Script.toHex
  rw [C28_pushdata_refuted s hw hp]
  rfl

/-- C28. The same for a single instruction. -/
theorem C28_instruction_hex_partial (i : Instruction) (hw : Wf i.wire)
    (hp : ¬ (76 ≤ i.opcode.number.val ∧ i.opcode.number.val ≤ 78)) :
    ∃ b, Encodes [i.wire] b ∧ i.toBytes = .ok b ∧ i.toHex = .ok (hexText b) := by
  rcases bytesOf_spec [i] (by simpa using hw) with ⟨⟨w, hw1, hw2⟩, _⟩ | ⟨_, b, hb, he⟩
  · rw [List.map_singleton, List.mem_singleton] at hw1
    subst hw1
    exact absurd hw2 hp
  · have h1 : i.toBytes = .ok b := by
      unfold Script.bytesOf at hb
      cases h : i.toBytes with
      | error e => rw [h] at hb; cases hb
      | ok x =>
        rw [h] at hb
        simp only [Script.bytesOf, List.append_nil] at hb
        exact hb
    exact ⟨b, he, h1, by unfold Instruction.toHex; rw [h1, hexText_eq]; rfl⟩

/-- C75. `ScriptInput.create` keeps what it is given, whatever the script. -/
theorem C75_script_input (id : Text) (ix seq : Int) (s : Script) :
    ScriptInput.create id ix s seq = ⟨.script, id, ix, s, seq⟩ ∧ (ScriptInput.create id ix s).seqNumber = 0xFFFFFFFF :=
  ⟨rfl, rfl⟩

example : (⟨.generic, [⟨.num 2, some ⟨.str, [0xab, 7]⟩⟩, ⟨.num 118, none⟩]⟩ : Script).toHex = .ok "02ab0776".toList ∧
    (⟨.num 2, some ⟨.str, [0xab, 7]⟩⟩ : Instruction).toHex = .ok "02ab07".toList ∧
    (⟨.num 76, some ⟨.str, [0xab, 7]⟩⟩ : Instruction).toHex = .error .typeError := by decide +kernel

example : Script.compile [.bytes ⟨.str, [7, 8]⟩, .tuple [.opcode (.num 76), .data ⟨.bytearray, [9]⟩], .opcode (.num 135)] =
    .ok ⟨.generic, [⟨.num 2, some ⟨.str, [7, 8]⟩⟩, ⟨.num 76, some ⟨.bytearray, [9]⟩⟩, ⟨.num 135, none⟩]⟩ := by
  decide +kernel
example : Script.compile [.opcode (.num 106), .bytes ⟨.str, [1]⟩] =
    .ok ⟨.opReturnOut, [⟨.num 106, none⟩, ⟨.num 1, some ⟨.str, [1]⟩⟩]⟩ := by decide +kernel
example : Script.compile (List.replicate 4 (.bytes ⟨.str, [7]⟩)) = .error .attributeError := by decide +kernel
example : Script.compile [.opcode (.num 118), .tuple [.number 256, .none]] = .error .opUnknownNumber ∧
    Script.compile [.number 5] = .error .typeError ∧ Script.compile [.tuple []] = .error .indexError ∧
    Script.compile [.tuple [.number 2, .data ⟨.str, [7, 8]⟩, .number 9]] = .ok ⟨.generic, [⟨.num 2, some ⟨.str, [7, 8]⟩⟩]⟩ ∧
    Script.compile [.tuple [.opcode (.num 2), .data ⟨.str, [7, 8]⟩, .number 9]] = .error .typeError ∧
    Script.compile [.tuple [.data ⟨.str, [0xff]⟩]] = .error .unicodeDecodeError := by decide +kernel

end Bitforge
