import Verif.Props.Writers
import Verif.Props.Names
import Verif.Props.Push
import Verif.Props.Messages

/-! # C124: what opcodes and instructions answer in every case -/

namespace Bitforge
open Spec

/-! ## The outcomes -/

/-- `Opcode(number)`. -/
inductive OpcodeMade (n : Int) : Except Err Opcode → Prop
  | opcode {o : Opcode} : n = o.number.val → OpcodeMade n (.ok o)
  | unknown : n < 0 ∨ 255 < n → OpcodeMade n (.error .opUnknownNumber)

/-- The name of an opcode. -/
inductive NameGiven (o : Opcode) : Except Err Text → Prop
  | direct {d : Text} : 1 ≤ o.number.val → o.number.val ≤ 75 → Decimal d o.number.val →
      NameGiven o (.ok ("_PUSH_".toList ++ d ++ "_BYTES".toList))
  | named {t : Text} : NameOf t o.number → t ≠ "OP_FALSE".toList → t ≠ "OP_TRUE".toList → NameGiven o (.ok t)
  | nameless : ¬ Named o.number → NameGiven o (.error .keyError)

/-- The error of asking an opcode for something it is not; saying so takes a name. -/
inductive Mentioned (o : Opcode) (e : Err) : Err → Prop
  | named : Named o.number → Mentioned o e e
  | nameless : ¬ Named o.number → Mentioned o e .keyError

/-- The number an opcode pushes. -/
inductive NumberRead (o : Opcode) : Except Err Int → Prop
  | number {n : Nat} : smallNumber o.number = some n → NumberRead o (.ok n)
  | other {e : Err} : smallNumber o.number = none → Mentioned o .opWrongType e → NumberRead o (.error e)

/-- The opcode that pushes a number. -/
inductive NumberFound (n : Int) : Except Err Opcode → Prop
  | opcode {o : Opcode} {k : Nat} : smallNumber o.number = some k → n = k → NumberFound n (.ok o)
  | range : n < 0 ∨ 16 < n → NumberFound n (.error .valueError)

/-- The number of bytes a counted push has for its count. -/
inductive CountRead (o : Opcode) : Except Err Nat → Prop
  | counted {w : Nat} : pushKind o.number = .counted w → CountRead o (.ok w)
  | other {e : Err} : (∀ w, pushKind o.number ≠ .counted w) → Mentioned o .opWrongType e → CountRead o (.error e)

/-- The most bytes an opcode pushes. -/
def mostPushed (op : Byte) : Nat := match pushKind op with
  | .plain => 0
  | .direct n => n
  | .counted w => 256 ^ w - 1

/-- The opcode of a direct push. -/
inductive DirectFound (n : Int) : Except Err Opcode → Prop
  | opcode {o : Opcode} {k : Nat} : pushKind o.number = .direct k → n = k → DirectFound n (.ok o)
  | range : n < 1 ∨ 75 < n → DirectFound n (.error .opInvalidConstPushLength)

/-- The opcode of a counted push: the one with the shortest count that is long enough. -/
inductive CountedFound (n : Int) : Except Err Opcode → Prop
  | opcode {o : Opcode} {k w : Nat} : pushKind o.number = .counted w → n = k → 1 ≤ k → k < 256 ^ w →
      (∀ o' w', pushKind o' = .counted w' → k < 256 ^ w' → w ≤ w') → CountedFound n (.ok o)
  | range : n < 1 ∨ 2 ^ 32 ≤ n → CountedFound n (.error .opInvalidPushLength)

/-- The opcode of a push. -/
inductive PushFound (n : Int) : Except Err Opcode → Prop
  | direct {r : Except Err Opcode} : n ≤ 75 → DirectFound n r → PushFound n r
  | counted {r : Except Err Opcode} : 75 < n → CountedFound n r → PushFound n r

/-- `Instruction(opcode, data)`. -/
inductive InstructionMade (o : Opcode) (d : Option Data) : Except Err Instruction → Prop
  | instruction : Wf (o.number, d.map Data.val) → InstructionMade o d (.ok ⟨o, d⟩)
  | missing : pushKind o.number ≠ .plain → d = none → InstructionMade o d (.error .typeError)
  | length {x : Data} : pushKind o.number ≠ .plain → d = some x → ¬ Wf (o.number, some x.val) →
      InstructionMade o d (.error .insInvalidDataLength)
  | unexpected {x : Data} {e : Err} : pushKind o.number = .plain → d = some x → Mentioned o .insUnexpectedData e →
      InstructionMade o d (.error e)

/-- `Instruction.push_for(bytes)`. -/
inductive PushBuilt (d : Data) : Except Err Instruction → Prop
  | push {o : Opcode} : PushFound d.val.length (.ok o) → PushBuilt d (.ok ⟨o, some d⟩)
  | none {e : Err} : PushFound d.val.length (.error e) → PushBuilt d (.error e)

/-- `is_minimal_push`. -/
inductive MinimalSaid (i : Instruction) : Except Err Bool → Prop
  | nothing : (∀ d, i.data = some d → d.val = []) → MinimalSaid i (.ok true)
  | number {b : Byte} : i.data = some ⟨.str, [b]⟩ → 1 ≤ b.val → b.val ≤ 16 →
      MinimalSaid i (.ok (decide (i.opcode.number.val = 80 + b.val)))
  | negate : i.data = some ⟨.str, [0x81]⟩ → MinimalSaid i (.ok (decide (i.opcode.number.val = 79)))
  | short {d : Data} : i.data = some d → d.val ≠ [] → d.val.length ≤ 75 →
      (∀ b, d = ⟨.str, [b]⟩ → ¬ (1 ≤ b.val ∧ b.val ≤ 16 ∨ b.val = 0x81)) → MinimalSaid i (.error .attributeError)
  | one {d : Data} : i.data = some d → 76 ≤ d.val.length → d.val.length ≤ 255 →
      MinimalSaid i (.ok (decide (i.opcode.number.val = 76)))
  | two {d : Data} : i.data = some d → 256 ≤ d.val.length → d.val.length ≤ 65535 →
      MinimalSaid i (.ok (decide (i.opcode.number.val = 77)))
  | four {d : Data} : i.data = some d → 65536 ≤ d.val.length → MinimalSaid i (.ok true)

/-- An instruction as text. -/
inductive InstrText (i : Instruction) : Except Err Text → Prop
  | missing : pushKind i.opcode.number ≠ .plain → i.data = none → InstrText i (.error .typeError)
  | direct {d : Data} {n : Text} {k : Nat} : pushKind i.opcode.number = .direct k → i.data = some d → Decimal n d.val.length →
      InstrText i (.ok (n ++ " 0x".toList ++ hexText d.val))
  | counted {d : Data} {n name : Text} {w : Nat} : pushKind i.opcode.number = .counted w → i.data = some d →
      NameGiven i.opcode (.ok name) → Decimal n d.val.length →
      InstrText i (.ok (name ++ " ".toList ++ n ++ " 0x".toList ++ hexText d.val))
  | plain {r : Except Err Text} : pushKind i.opcode.number = .plain → NameGiven i.opcode r → InstrText i r

/-- The texts of several instructions; the first that has none decides the error. -/
inductive InstrTexts : List Instruction → Except Err (List Text) → Prop
  | nil : InstrTexts [] (.ok [])
  | here {i is e} : InstrText i (.error e) → InstrTexts (i :: is) (.error e)
  | later {i is t e} : InstrText i (.ok t) → InstrTexts is (.error e) → InstrTexts (i :: is) (.error e)
  | next {i is t ts} : InstrText i (.ok t) → InstrTexts is (.ok ts) → InstrTexts (i :: is) (.ok (t :: ts))

/-- A script as text. -/
inductive ScriptText (s : Script) : Except Err Text → Prop
  | text {ts} : InstrTexts s.instructions (.ok ts) → ScriptText s (.ok ([' '].intercalate ts))
  | none {e} : InstrTexts s.instructions (.error e) → ScriptText s (.error e)

/-! ## Decimal digits -/

theorem digitsValue_snoc (t : Text) (c : Char) : digitsValue (t ++ [c]) = digitsValue t * 10 + (c.toNat - '0'.toNat) := by
  unfold digitsValue
  rw [List.reverse_append, List.map_append]
  simp only [List.reverse_singleton, List.map_cons, List.map_nil, List.singleton_append, Nat.ofDigits_cons]
  push_cast
  ring

theorem digits_inj (t : Text) : ∀ t' : Text, Digits t → Digits t' → t.head? ≠ some '0' → t'.head? ≠ some '0' →
    digitsValue t = digitsValue t' → t = t' := by
  have pos : ∀ s : Text, s ≠ [] → Digits s → s.head? ≠ some '0' → 0 < digitsValue s := by
    intro s
    induction s using List.reverseRecOn with
    | nil => exact fun h => absurd rfl h
    | append_singleton s c ih =>
      intro _ hd hh
      rw [digitsValue_snoc]
      have hc := hd c (by simp)
      by_cases hs : s = []
      · subst hs
        have : c.toNat ≠ '0'.toNat := fun e => hh (by simp [Char.toNat_inj.1 e])
        omega
      · have := ih hs (fun x hx => hd x (by simp [hx])) (by
          intro h; apply hh; cases s with
          | nil => exact absurd rfl hs
          | cons a s => simpa using h)
        omega
  have front : ∀ (s : Text) (c : Char), (s ++ [c]).head? ≠ some '0' → s.head? ≠ some '0' := by
    intro s c h h'
    apply h
    cases s with
    | nil => cases h'
    | cons a s => simpa using h'
  induction t using List.reverseRecOn with
  | nil =>
    intro t' _ hd _ hh e
    by_contra hn
    have := pos t' (fun h => hn h.symm) hd hh
    rw [← e] at this
    exact absurd this (by decide)
  | append_singleton s c ih =>
    intro t' hd hd' hh hh' e
    obtain rfl | ⟨s', c', rfl⟩ := List.eq_nil_or_concat' t'
    · have := pos _ (by simp) hd hh
      rw [e] at this
      exact absurd this (by decide)
    · rw [digitsValue_snoc, digitsValue_snoc] at e
      have hc := hd c (by simp)
      have hc' := hd' c' (by simp)
      have h9 : '9'.toNat = 57 := rfl
      have h0 : '0'.toNat = 48 := rfl
      have e1 : c.toNat = c'.toNat := by omega
      have e2 : digitsValue s = digitsValue s' := by omega
      rw [Char.toNat_inj.1 e1, ih s' (fun x hx => hd x (by simp [hx])) (fun x hx => hd' x (by simp [hx])) (front _ _ hh)
        (front _ _ hh') e2]

/-- A number is written in decimal digits in one way. -/
theorem decimal_iff (t : Text) (n : Nat) : Decimal t n ↔ t = Opcode.decText n := by
  refine ⟨fun h => ?_, fun h => h ▸ decimal_decText n⟩
  have key : ∀ t t' : Text, Decimal t n → Decimal t' n → t.head? = some '0' → t = t' := by
    rintro t t' ⟨-, -, h3, h4⟩ ⟨g1, g2, g3, g4⟩ hh
    have e := h4 hh
    by_cases hh' : t'.head? = some '0'
    · rw [e, g4 hh']
    · subst e
      have : digitsValue t' = digitsValue [] := by rw [g3, ← h3]; rfl
      exact absurd (digits_inj t' [] g2 (by intro c hc; cases hc) hh' (by simp) this) g1
  have hd := decimal_decText n
  by_cases hh : t.head? = some '0'
  · exact key _ _ h hd hh
  · by_cases hh' : (Opcode.decText n).head? = some '0'
    · exact (key _ _ hd h hh').symm
    · exact digits_inj _ _ h.2.1 hd.2.1 hh hh' (h.2.2.1.trans hd.2.2.1.symm)

/-! ## The opcodes -/

/-- C124. What `Opcode(number)` does with every number. -/
theorem C124_opcode (n : Int) (r : Except Err Opcode) : Opcode.make n = r ↔ OpcodeMade n r := by
  refine graph (f := Opcode.make) (R := OpcodeMade) ?_ ?_ n r
  · rintro n _ (@⟨⟨b⟩, rfl⟩ | h)
    · unfold Opcode.make
      rw [if_neg (not_not.2 ⟨by simp, by show (b.val : Int) ≤ 255; omega⟩)]
      unfold Opcode.num
      simp
    · unfold Opcode.make; rw [if_pos (by omega)]
  · intro n
    by_cases h : n < 0 ∨ 255 < n
    · exact ⟨_, .unknown h⟩
    · exact ⟨_, .opcode (o := ⟨⟨n.toNat, by omega⟩⟩) (by show n = (n.toNat : Int); omega)⟩

theorem name_of {t : Text} {b : Byte} (h : NameOf t b) (h1 : t ≠ "OP_FALSE".toList) (h2 : t ≠ "OP_TRUE".toList) :
    (Opcode.mk b).name = .ok t := by
  obtain ⟨s, hs, rfl, hm⟩ := h
  have : ∀ e ∈ opcodeNames, e.1 ∉ forbiddenNames → e.1 ≠ "OP_FALSE" → e.1 ≠ "OP_TRUE" → e.2 < 256 ∧
      (Opcode.mk (Fin.ofNat 256 e.2)).name.toOption = some e.1.toList := by decide +kernel
  obtain ⟨-, h⟩ := this _ hm hs (fun e => h1 (by rw [show s = "OP_FALSE" from e])) (fun e => h2 (by rw [show s = "OP_TRUE" from e]))
  have e : Fin.ofNat 256 b.val = b := by simp
  rw [e] at h
  cases hn : (Opcode.mk b).name with
  | error e => rw [hn] at h; cases h
  | ok t => rw [hn] at h; exact congrArg _ (Option.some.inj h)

/-- C124. The name of every opcode. -/
theorem C124_name (o : Opcode) (r : Except Err Text) : o.name = r ↔ NameGiven o r := by
  refine graph (f := Opcode.name) (R := NameGiven) ?_ ?_ o r
  · rintro ⟨b⟩ _ (⟨h1, h2, h3⟩ | ⟨h1, h2, h3⟩ | h)
    · unfold Opcode.name
      rw [(decimal_iff _ _).1 h3, if_pos (by unfold Opcode.isConstPush; simp only [Bool.and_eq_true, decide_eq_true_eq]; exact ⟨h1, h2⟩)]
    · exact name_of h1 h2 h3
    · exact name_unnamed _ h
  · rintro ⟨b⟩
    by_cases h : Named b
    · obtain ⟨t, ht, -⟩ := name_named b h
      rcases C68_name b t ht with ⟨-, h1, h2, h3⟩ | ⟨hk, d, hd, rfl⟩
      · exact ⟨_, .named h1 h2 h3⟩
      · have := (pushKind_const b).2 hk
        unfold Opcode.isConstPush at this
        simp only [Bool.and_eq_true, decide_eq_true_eq] at this
        exact ⟨_, .direct this.1 this.2 hd⟩
    · exact ⟨_, .nameless h⟩

theorem mentioned_iff (o : Opcode) (e x : Err) : o.mention e = x ↔ Mentioned o e x := by
  refine graph (f := fun p : Opcode × Err => p.1.mention p.2) (R := fun p x => Mentioned p.1 p.2 x) ?_ ?_ (o, e) x
  · rintro ⟨o, e⟩ _ (h | h)
    · exact mention_named _ h
    · exact mention_nameless _ h
  · rintro ⟨o, e⟩
    by_cases h : Named o.number
    · exact ⟨_, .named h⟩
    · exact ⟨_, .nameless h⟩

theorem value_table : ∀ b : Byte, ∀ n ∈ smallNumber b, (Opcode.mk b).numberValue.toOption = some (n : Int) := by decide +kernel

/-- C124. The opcodes that are numbers. -/
theorem C124_is_number (o : Opcode) : o.isNumber = true ↔ ∃ n, smallNumber o.number = some n := by
  rw [isNumber_iff o.number, Option.isSome_iff_exists]

/-- C124. What `number_value` does with every opcode. -/
theorem C124_number_value (o : Opcode) (r : Except Err Int) : o.numberValue = r ↔ NumberRead o r := by
  refine graph (f := Opcode.numberValue) (R := NumberRead) ?_ ?_ o r
  · rintro ⟨b⟩ _ (h | ⟨h, hm⟩)
    · have := value_table b _ h
      cases hn : (Opcode.mk b).numberValue with
      | error e => rw [hn] at this; cases this
      | ok t => rw [hn] at this; exact congrArg _ (Option.some.inj this)
    · unfold Opcode.numberValue
      rw [if_pos (by rw [isNumber_iff, show smallNumber b = none from h]; decide), (mentioned_iff _ _ _).2 hm]
  · rintro ⟨b⟩
    cases h : smallNumber b with
    | some n => exact ⟨_, .number h⟩
    | none => exact ⟨_, .other h ((mentioned_iff _ _ _).1 rfl)⟩

theorem for_table : ∀ b : Byte, ∀ n ∈ smallNumber b, n ≤ 16 ∧ (Opcode.forNumber n).toOption = some ⟨b⟩ := by decide +kernel

/-- C124. What `for_number` does with every number. -/
theorem C124_for_number (n : Int) (r : Except Err Opcode) : Opcode.forNumber n = r ↔ NumberFound n r := by
  refine graph (f := Opcode.forNumber) (R := NumberFound) ?_ ?_ n r
  · rintro n _ (@⟨⟨b⟩, k, h, rfl⟩ | h)
    · have := (for_table b _ h).2
      cases hn : Opcode.forNumber k with
      | error e => rw [hn] at this; cases this
      | ok t => rw [hn] at this; exact congrArg _ (Option.some.inj this)
    · unfold Opcode.forNumber; rw [if_neg (by omega)]
  · intro n
    by_cases h : n < 0 ∨ 16 < n
    · exact ⟨_, .range h⟩
    · have : ∀ k : Fin 17, ∃ b, smallNumber b = some k.val := by decide +kernel
      obtain ⟨b, hb⟩ := this ⟨n.toNat, by omega⟩
      exact ⟨_, .opcode (o := ⟨b⟩) hb (by show n = (n.toNat : Int); omega)⟩

/-! ## The pushes -/

/-- C124. The kinds of pushes, and how much they push at most. -/
theorem C124_kinds (o : Opcode) :
    (o.isConstPush = true ↔ ∃ n, pushKind o.number = .direct n) ∧
    (o.isVarPush = true ↔ ∃ w, pushKind o.number = .counted w) ∧
    (o.isPush = true ↔ pushKind o.number ≠ .plain) ∧ o.dataLengthMax = mostPushed o.number := by
  obtain ⟨b⟩ := o
  refine ⟨⟨fun h => ⟨_, (pushKind_const b).1 h⟩, fun ⟨n, h⟩ => ?_⟩, ⟨fun h => ?_, fun ⟨w, h⟩ => ?_⟩, ?_, ?_⟩
  · rw [pushKind_const]
    rcases pushKind_cases b with e | e | ⟨-, e⟩ | ⟨-, e⟩ | ⟨-, e⟩ <;> first | exact e | exact absurd (e.symm.trans h) (by simp)
  · rcases (pushKind_var b).1 h with ⟨-, h⟩ | ⟨-, h⟩ | ⟨-, h⟩ <;> exact ⟨_, h⟩
  · rw [pushKind_var]
    rcases pushKind_cases b with e | e | e | e | e
    · exact absurd (e.symm.trans h) (by simp)
    · exact absurd (e.symm.trans h) (by simp)
    · exact .inl e
    · exact .inr (.inl e)
    · exact .inr (.inr e)
  · rw [Ne, ← pushKind_plain]; simp
  · have : ∀ b : Byte, (Opcode.mk b).dataLengthMax = mostPushed b := by decide +kernel
    exact this b

/-- C124. What `data_length_nbytes` does with every opcode. -/
theorem C124_count (o : Opcode) (r : Except Err Nat) : o.dataLengthNbytes = r ↔ CountRead o r := by
  have t1 : ∀ b : Byte, (match pushKind b with
      | .counted w => (Opcode.mk b).dataLengthNbytes.toOption = some w
      | _ => b ≠ 76 ∧ b ≠ 77 ∧ b ≠ 78) := by
    have : ∀ b : Byte, (match pushKind b with
      | .counted w => decide ((Opcode.mk b).dataLengthNbytes.toOption = some w)
      | _ => decide (b ≠ 76 ∧ b ≠ 77 ∧ b ≠ 78)) = true := by decide +kernel
    intro b
    have := this b
    split <;> simp_all
  refine graph (f := Opcode.dataLengthNbytes) (R := CountRead) ?_ ?_ o r
  · rintro ⟨b⟩ _ (h | ⟨h, hm⟩)
    · have := t1 b
      rw [show pushKind b = _ from h] at this
      cases hn : (Opcode.mk b).dataLengthNbytes with
      | error e => rw [hn] at this; cases this
      | ok t => rw [hn] at this; exact congrArg _ (Option.some.inj this)
    · have := t1 b
      have hn : b ≠ 76 ∧ b ≠ 77 ∧ b ≠ 78 := by
        cases hp : pushKind b with
        | counted w => exact absurd hp (h w)
        | plain => rw [hp] at this; exact this
        | direct n => rw [hp] at this; exact this
      have n6 : Opcode.mk b ≠ Opcode.num 76 := fun e => hn.1 (Opcode.mk.inj e)
      have n7 : Opcode.mk b ≠ Opcode.num 77 := fun e => hn.2.1 (Opcode.mk.inj e)
      have n8 : Opcode.mk b ≠ Opcode.num 78 := fun e => hn.2.2 (Opcode.mk.inj e)
      unfold Opcode.dataLengthNbytes
      rw [if_neg n6, if_neg n7, if_neg n8, (mentioned_iff _ _ _).2 hm]
  · rintro ⟨b⟩
    by_cases h : ∃ w, pushKind b = .counted w
    · obtain ⟨w, h⟩ := h; exact ⟨_, .counted h⟩
    · exact ⟨_, .other (fun w hw => h ⟨w, hw⟩) ((mentioned_iff _ _ _).1 rfl)⟩

theorem direct_val {b : Byte} {k : Nat} (h : pushKind b = .direct k) : k = b.val ∧ 1 ≤ b.val ∧ b.val ≤ 75 := by
  have hc := ((C124_kinds ⟨b⟩).1).2 ⟨_, h⟩
  have e := (pushKind_const b).1 hc
  unfold Opcode.isConstPush at hc
  simp only [Bool.and_eq_true, decide_eq_true_eq] at hc
  rw [h] at e
  exact ⟨PushKind.direct.inj e, hc⟩

theorem kind_direct (k : Nat) (h : 1 ≤ k) (h' : k ≤ 75) : pushKind ⟨k, by omega⟩ = .direct k := by
  unfold pushKind
  rw [if_neg (by show ¬ k = 0; omega), if_pos (by show k < 76; omega)]

/-- C124. What `const_push_for` does with every length. -/
theorem C124_direct (n : Int) (r : Except Err Opcode) : Opcode.constPushFor n = r ↔ DirectFound n r := by
  refine graph (f := Opcode.constPushFor) (R := DirectFound) ?_ ?_ n r
  · rintro n _ (@⟨⟨b⟩, k, h, rfl⟩ | h)
    · obtain ⟨rfl, h1, h2⟩ := direct_val h
      unfold Opcode.constPushFor
      rw [if_neg (by omega)]
      exact (C124_opcode _ _).2 (.opcode rfl)
    · unfold Opcode.constPushFor; rw [if_pos (by omega)]
  · intro n
    by_cases h : n < 1 ∨ 75 < n
    · exact ⟨_, .range h⟩
    · exact ⟨_, .opcode (o := ⟨_⟩) (kind_direct n.toNat (by omega) (by omega)) (by omega)⟩

theorem varPushFor_table (n : Int) : Opcode.varPushFor n = if n < 1 then .error .opInvalidPushLength
    else if n ≤ 255 then .ok (.num 76)
    else if n ≤ 65535 then .ok (.num 77)
    else if n ≤ 4294967295 then .ok (.num 78)
    else .error .opInvalidPushLength := by
  have m6 : (Opcode.num 76).dataLengthMax = 255 := by decide
  have m7 : (Opcode.num 77).dataLengthMax = 65535 := by decide
  have m8 : (Opcode.num 78).dataLengthMax = 4294967295 := by decide +kernel
  unfold Opcode.varPushFor
  split
  · rfl
  · simp only [List.find?_cons, m6, m7, m8, List.find?_nil]
    by_cases h1 : n ≤ 255
    · simp [h1]
    · by_cases h2 : n ≤ 65535
      · simp [h1, h2]
      · by_cases h3 : n ≤ 4294967295 <;> simp [h1, h2, h3]

theorem counted_cases {b : Byte} {w : Nat} (h : pushKind b = .counted w) : b = 76 ∧ w = 1 ∨ b = 77 ∧ w = 2 ∨ b = 78 ∧ w = 4 := by
  rcases pushKind_cases b with e | e | ⟨hb, e⟩ | ⟨hb, e⟩ | ⟨hb, e⟩ <;> rw [h] at e <;> cases e <;> simp [hb]

/-- C124. What `var_push_for` does with every length. -/
theorem C124_counted (n : Int) (r : Except Err Opcode) : Opcode.varPushFor n = r ↔ CountedFound n r := by
  refine graph (f := Opcode.varPushFor) (R := CountedFound) ?_ ?_ n r
  · rintro n _ (@⟨⟨b⟩, k, w, h, rfl, h1, h2, hmin⟩ | h)
    · rw [varPushFor_table, if_neg (by omega)]
      have m1 := hmin 76 1 (by decide)
      have m2 := hmin 77 2 (by decide)
      rcases counted_cases h with ⟨rfl, rfl⟩ | ⟨rfl, rfl⟩ | ⟨rfl, rfl⟩
      · rw [if_pos (by omega)]; rfl
      · rw [if_neg (by omega), if_pos (by omega)]; rfl
      · rw [if_neg (by omega), if_neg (by omega), if_pos (by omega)]; rfl
    · rw [varPushFor_table]
      split
      · rfl
      · rw [if_neg (by omega), if_neg (by omega), if_neg (by omega)]
  · intro n
    by_cases h : n < 1 ∨ 2 ^ 32 ≤ n
    · exact ⟨_, .range h⟩
    · have hn : n = (n.toNat : Int) := by omega
      by_cases h1 : n ≤ 255
      · exact ⟨_, .opcode (o := ⟨76⟩) (w := 1) (by decide) hn (by omega) (by omega)
          fun o' w' h' hk => by rcases counted_cases h' with ⟨-, rfl⟩ | ⟨-, rfl⟩ | ⟨-, rfl⟩ <;> omega⟩
      · by_cases h2 : n ≤ 65535
        · exact ⟨_, .opcode (o := ⟨77⟩) (w := 2) (by decide) hn (by omega) (by omega)
            fun o' w' h' hk => by rcases counted_cases h' with ⟨-, rfl⟩ | ⟨-, rfl⟩ | ⟨-, rfl⟩ <;> omega⟩
        · exact ⟨_, .opcode (o := ⟨78⟩) (w := 4) (by decide) hn (by omega) (by omega)
            fun o' w' h' hk => by rcases counted_cases h' with ⟨-, rfl⟩ | ⟨-, rfl⟩ | ⟨-, rfl⟩ <;> omega⟩

/-- C124. What `push_for` does with every length. -/
theorem C124_push (n : Int) (r : Except Err Opcode) : Opcode.pushFor n = r ↔ PushFound n r := by
  unfold Opcode.pushFor
  split
  · next h =>
    rw [C124_direct]
    exact ⟨.direct h, fun | .direct _ h => h | .counted h' _ => absurd h (by omega)⟩
  · next h =>
    rw [C124_counted]
    exact ⟨.counted (by omega), fun | .direct h' _ => absurd h' h | .counted _ h => h⟩

/-! ## The instructions -/

/-- C124. What `Instruction(opcode, data)` does with everything. -/
theorem C124_instruction (o : Opcode) (d : Option Data) (r : Except Err Instruction) :
    Instruction.make o d = r ↔ InstructionMade o d r := by
  refine graph (f := fun p : Opcode × Option Data => Instruction.make p.1 p.2) (R := fun p x => InstructionMade p.1 p.2 x) ?_ ?_ (o, d) r
  · rintro ⟨⟨b⟩, d⟩ _ (h | ⟨h, rfl⟩ | ⟨h, rfl, hw⟩ | ⟨h, rfl, hm⟩)
    · exact (C27_accepts_iff _ _ _).2 ⟨rfl, h⟩
    · show Instruction.make _ none = _
      unfold Instruction.make
      rw [if_pos (((C124_kinds ⟨b⟩).2.2.1).2 h)]
    · rw [C27_errors _ _ hw]
      revert h
      generalize pushKind b = k
      cases k <;> simp
    · show Instruction.make ⟨b⟩ (some _) = _
      unfold Instruction.make
      have hk := (pushKind_plain b).2 h
      rw [if_neg (by rw [hk]; simp), if_pos (by simp), (mentioned_iff _ _ _).2 hm]
  · rintro ⟨⟨b⟩, d⟩
    by_cases hw : Wf (b, d.map Data.val)
    · exact ⟨_, .instruction hw⟩
    · by_cases hk : pushKind b = .plain
      · cases d with
        | none => exact absurd hk hw
        | some x => exact ⟨_, .unexpected hk rfl ((mentioned_iff _ _ _).1 rfl)⟩
      · cases d with
        | none => exact ⟨_, .missing hk rfl⟩
        | some x => exact ⟨_, .length hk rfl hw⟩

theorem found_wf {d : Bytes} {o : Opcode} (h : PushFound d.length (.ok o)) : Wf (o.number, some d) := by
  cases h with
  | direct _ h =>
    cases h with
    | opcode h e =>
      unfold Wf; simp only [h]; omega
  | counted _ h =>
    cases h with
    | opcode h e _ hk =>
      unfold Wf; simp only [h]
      have : d.length = _ := Int.natCast_inj.1 e
      rw [this]; exact hk

/-- C124. What `Instruction.push_for` does with all bytes. -/
theorem C124_push_instruction (d : Data) (r : Except Err Instruction) : Instruction.pushFor d = r ↔ PushBuilt d r := by
  refine graph (f := Instruction.pushFor) (R := PushBuilt) ?_ ?_ d r
  · rintro d _ (h | h)
    · unfold Instruction.pushFor
      rw [(C124_push _ _).2 h]
      exact (C27_accepts_iff _ _ _).2 ⟨rfl, found_wf h⟩
    · unfold Instruction.pushFor
      rw [(C124_push _ _).2 h]
  · intro d
    cases h : Opcode.pushFor d.val.length with
    | error e => exact ⟨_, .none ((C124_push _ _).1 h)⟩
    | ok o => exact ⟨_, .push ((C124_push _ _).1 h)⟩

/-- C124. What `is_minimal_push` says of every instruction, whichever way it was made. -/
theorem C124_minimal (i : Instruction) (r : Except Err Bool) : i.isMinimalPush = r ↔ MinimalSaid i r := by
  have num_eq : ∀ (o : Opcode) (k : Nat), k < 256 → (o == Opcode.num k) = decide (o.number.val = k) := by
    rintro ⟨b⟩ k hk
    rw [Bool.eq_iff_iff, beq_iff_eq, decide_eq_true_eq]
    refine ⟨fun e => by rw [e]; exact Nat.mod_eq_of_lt hk, fun e => ?_⟩
    unfold Opcode.num
    congr 1
    apply Fin.ext
    show b.val = k % 256
    rw [Nat.mod_eq_of_lt hk]; exact e
  have first : ∀ (d : Data) (b : Byte), d.kind ≠ .str → Instruction.firstValue d b = 0 := by
    rintro ⟨k, v⟩ b h
    cases k
    · exact absurd rfl h
    · rfl
  have long : ∀ (o : Opcode) (d : Data), 76 ≤ d.val.length → Instruction.isMinimalPush ⟨o, some d⟩ =
      if d.val.length ≤ 255 then .ok (o == Opcode.num 76)
      else if d.val.length ≤ 65535 then .ok (o == Opcode.num 77) else .ok true := by
    rintro o ⟨k, v⟩ h
    cases v with
    | nil => exact absurd h (by simp)
    | cons b v =>
      have hv : v ≠ [] := by rintro rfl; simp at h
      simp only [Instruction.isMinimalPush]
      rw [if_neg (fun h => hv h.1), if_neg (fun h => hv h.1), if_neg (by simp only at h; omega)]
  refine graph (f := Instruction.isMinimalPush) (R := MinimalSaid) ?_ ?_ i r
  · rintro ⟨o, d⟩ _ (h | ⟨h, h1, h2⟩ | h | ⟨h, hn, hl, hb⟩ | ⟨h, h1, h2⟩ | ⟨h, h1, h2⟩ | ⟨h, h1⟩)
    · cases d with
      | none => rfl
      | some d =>
        obtain ⟨k, v⟩ := d
        have : v = [] := h _ rfl
        subst this
        rfl
    · cases h
      simp only [Instruction.isMinimalPush, Instruction.firstValue]
      rw [if_pos ⟨trivial, h1, h2⟩]
      congr 1
      rw [Bool.eq_iff_iff, beq_iff_eq, decide_eq_true_eq]
      omega
    · cases h
      simp only [Instruction.isMinimalPush, Instruction.firstValue]
      rw [if_neg (by decide), if_pos (by decide), num_eq _ _ (by decide)]
    · cases h
      rename_i d
      obtain ⟨k, v⟩ := d
      cases v with
      | nil => exact absurd rfl hn
      | cons b v =>
        have hv : v = [] → ¬ (1 ≤ Instruction.firstValue ⟨k, b :: v⟩ b ∧ Instruction.firstValue ⟨k, b :: v⟩ b ≤ 16 ∨
            Instruction.firstValue ⟨k, b :: v⟩ b = 0x81) := by
          rintro rfl
          cases k with
          | str => exact hb b rfl
          | bytearray => rw [first _ _ (by simp)]; decide
        simp only [Instruction.isMinimalPush]
        rw [if_neg (fun h => hv h.1 (.inl h.2)), if_neg (fun h => hv h.1 (.inr h.2)), if_pos hl]
    · cases h
      rw [long _ _ (by omega)]
      rw [if_pos h2, num_eq _ _ (by decide)]
    · cases h
      rw [long _ _ (by omega)]
      rw [if_neg (by omega), if_pos h2, num_eq _ _ (by decide)]
    · cases h
      rw [long _ _ (by omega)]
      rw [if_neg (by omega), if_neg (by omega)]
  · rintro ⟨o, d⟩
    cases d with
    | none => exact ⟨_, .nothing fun d h => by cases h⟩
    | some d =>
      by_cases h0 : d.val = []
      · exact ⟨_, .nothing fun d' h => by cases h; exact h0⟩
      · by_cases h1 : d.val.length ≤ 75
        · by_cases hb : ∃ b, d = ⟨.str, [b]⟩ ∧ (1 ≤ b.val ∧ b.val ≤ 16 ∨ b.val = 0x81)
          · obtain ⟨b, rfl, h | h⟩ := hb
            · exact ⟨_, .number rfl h.1 h.2⟩
            · have : b = 0x81 := Fin.ext h
              subst this
              exact ⟨_, .negate rfl⟩
          · exact ⟨_, .short rfl h0 h1 fun b e h => hb ⟨b, e, h⟩⟩
        · by_cases h2 : d.val.length ≤ 255
          · exact ⟨_, .one rfl (by omega) h2⟩
          · by_cases h3 : d.val.length ≤ 65535
            · exact ⟨_, .two rfl (by omega) h3⟩
            · exact ⟨_, .four rfl (by omega)⟩

/-- C124. Comparing instructions compares the opcodes and the bytes, not the kind of the bytes. -/
theorem C124_equal (i j : Instruction) : i.eq j = true ↔ i.opcode.number = j.opcode.number ∧ i.data.map Data.val = j.data.map Data.val := by
  unfold Instruction.eq
  rw [Bool.and_eq_true, beq_iff_eq, beq_iff_eq]
  obtain ⟨⟨a⟩, d⟩ := i
  obtain ⟨⟨b⟩, e⟩ := j
  simp

/-! ## Texts -/

/-- C124. What `to_string` of every instruction does. -/
theorem C124_text (i : Instruction) (r : Except Err Text) : i.toText = r ↔ InstrText i r := by
  refine graph (f := Instruction.toText) (R := InstrText) ?_ ?_ i r
  · rintro ⟨o, d⟩ _ (⟨h, hd⟩ | ⟨h, hd, hn⟩ | ⟨h, hd, hm, hn⟩ | ⟨h, hm⟩)
    · cases hd
      unfold Instruction.toText
      rw [if_pos (((C124_kinds o).2.2.1).2 h)]
    · cases hd
      unfold Instruction.toText
      rw [if_pos (((C124_kinds o).2.2.1).2 (by rw [h]; simp))]
      simp only
      rw [if_pos (((C124_kinds o).1).2 ⟨_, h⟩), (decimal_iff _ _).1 hn, hexText_eq]
      simp
    · cases hd
      unfold Instruction.toText
      rw [if_pos (((C124_kinds o).2.2.1).2 (by rw [h]; simp))]
      simp only
      rw [if_neg (fun hc => by obtain ⟨n, e⟩ := ((C124_kinds o).1).1 hc; rw [h] at e; cases e), (C124_name _ _).2 hm,
        (decimal_iff _ _).1 hn, hexText_eq]
      simp
    · unfold Instruction.toText
      rw [if_neg (fun hc => ((C124_kinds o).2.2.1).1 hc h), (C124_name _ _).2 hm]
  · rintro ⟨⟨b⟩, d⟩
    cases h : pushKind b with
    | plain => exact ⟨_, .plain h ((C124_name _ _).1 rfl)⟩
    | direct n =>
      cases d with
      | none => exact ⟨_, .missing (by rw [h]; simp) rfl⟩
      | some d => exact ⟨_, .direct h rfl (decimal_decText _)⟩
    | counted w =>
      cases d with
      | none => exact ⟨_, .missing (by rw [h]; simp) rfl⟩
      | some d =>
        have hn : Named b := by rcases counted_cases h with ⟨rfl, -⟩ | ⟨rfl, -⟩ | ⟨rfl, -⟩ <;> decide
        obtain ⟨t, ht, -⟩ := name_named b hn
        exact ⟨_, .counted h rfl ((C124_name _ _).1 ht) (decimal_decText _)⟩

theorem instrTexts_iff (is : List Instruction) (r : Except Err (List Text)) : is.mapM Instruction.toText = r ↔ InstrTexts is r := by
  refine graph (f := fun is : List Instruction => is.mapM Instruction.toText) (R := InstrTexts) ?_ ?_ is r
  · intro is r h
    induction h with
    | nil => rfl
    | here h => simp only [List.mapM_cons, (C124_text _ _).2 h]; rfl
    | later h _ ih => simp only [List.mapM_cons, (C124_text _ _).2 h, ih]; rfl
    | next h _ ih => simp only [List.mapM_cons, (C124_text _ _).2 h, ih]; rfl
  · intro is
    induction is with
    | nil => exact ⟨_, .nil⟩
    | cons i is ih =>
      obtain ⟨r, ih⟩ := ih
      cases h : i.toText with
      | error e => exact ⟨_, .here ((C124_text _ _).1 h)⟩
      | ok t => cases r with
        | error e => exact ⟨_, .later ((C124_text _ _).1 h) ih⟩
        | ok ts => exact ⟨_, .next ((C124_text _ _).1 h) ih⟩

/-- C124. What `to_string` of every script does. -/
theorem C124_script_text (s : Script) (r : Except Err Text) : s.toText = r ↔ ScriptText s r := by
  refine graph (f := Script.toText) (R := ScriptText) ?_ ?_ s r
  · rintro s _ (h | h)
    · unfold Script.toText; rw [(instrTexts_iff _ _).2 h, ← joinSpace_eq]; rfl
    · unfold Script.toText; rw [(instrTexts_iff _ _).2 h]; rfl
  · intro s
    cases h : s.instructions.mapM Instruction.toText with
    | error e => exact ⟨_, .none ((instrTexts_iff _ _).1 h)⟩
    | ok ts => exact ⟨_, .text ((instrTexts_iff _ _).1 h)⟩

/-- Each outcome is possible: what a few opcodes and instructions answer. -/
example : NameGiven ⟨0⟩ (.ok "OP_0".toList) ∧ NameGiven ⟨20⟩ (.ok "_PUSH_20_BYTES".toList) ∧ NameGiven ⟨200⟩ (.error .keyError) ∧
    NumberRead ⟨96⟩ (.ok 16) ∧ NumberRead ⟨118⟩ (.error .opWrongType) ∧ NumberRead ⟨200⟩ (.error .keyError) ∧
    NumberFound 16 (.ok ⟨96⟩) ∧ NumberFound 17 (.error .valueError) ∧ CountRead ⟨78⟩ (.ok 4) ∧
    CountRead ⟨20⟩ (.error .opWrongType) ∧ PushFound 75 (.ok ⟨75⟩) ∧ PushFound 76 (.ok ⟨76⟩) ∧ PushFound 256 (.ok ⟨77⟩) ∧
    PushFound 0 (.error .opInvalidConstPushLength) ∧ CountedFound 5 (.ok ⟨76⟩) := by
  simp only [← C124_name, ← C124_number_value, ← C124_for_number, ← C124_count, ← C124_push, ← C124_counted]
  decide +kernel

example : InstrText ⟨⟨2⟩, some ⟨.str, [1, 0xab]⟩⟩ (.ok "2 0x01ab".toList) ∧
    InstrText ⟨⟨76⟩, some ⟨.str, [1, 0xab]⟩⟩ (.ok "OP_PUSHDATA1 2 0x01ab".toList) ∧
    ScriptText ⟨.generic, [⟨⟨118⟩, none⟩, ⟨⟨2⟩, some ⟨.str, [1, 0xab]⟩⟩]⟩ (.ok "OP_DUP 2 0x01ab".toList) ∧
    ScriptText ⟨.generic, [⟨⟨118⟩, none⟩, ⟨⟨200⟩, none⟩]⟩ (.error .keyError) ∧
    MinimalSaid ⟨⟨81⟩, some ⟨.str, [1]⟩⟩ (.ok true) ∧ MinimalSaid ⟨⟨1⟩, some ⟨.str, [1]⟩⟩ (.ok false) ∧
    MinimalSaid ⟨⟨1⟩, some ⟨.bytearray, [1]⟩⟩ (.error .attributeError) ∧
    PushBuilt ⟨.str, [7, 8]⟩ (.ok ⟨⟨2⟩, some ⟨.str, [7, 8]⟩⟩) ∧ PushBuilt ⟨.str, []⟩ (.error .opInvalidConstPushLength) ∧
    InstructionMade ⟨118⟩ (some ⟨.str, []⟩) (.error .insUnexpectedData) := by
  simp only [← C124_text, ← C124_script_text, ← C124_minimal, ← C124_push_instruction, ← C124_instruction]
  decide +kernel

end Bitforge
