import Verif.Props.Refused
import Verif.Props.Broken
import Verif.Props.Compile
import Verif.Props.MakeOutcome
import Verif.Props.OpcodeOutcome

/-! # C129: what scripts are made from, what they are classified as, and what their getters answer, in every case -/

namespace Bitforge.Scripts
open Spec

/-! ## The outcomes -/

/-- The class of instructions of this shape (`none` is a push): the template that it matches, if any.  A long script that
begins with a push has no class, and neither has one that begins with a number and pushes just before its last opcode. -/
inductive ClassOf : List (Option Byte) → Except Err ScriptClass → Prop
  | template {c t s} : c.template = some t → Matches t s → ClassOf s (.ok c)
  | first {a b c s} : ClassOf (none :: a :: b :: c :: s) (.error .attributeError)
  | second {m mid z} : (smallNumber m).isSome → mid ≠ [] → ¬ Matches .p2shIn (some m :: (mid ++ [none, z])) →
      ClassOf (some m :: (mid ++ [none, z])) (.error .attributeError)
  | none {s} : (∀ t, ¬ Matches t s) → (∀ a b c s', s ≠ none :: a :: b :: c :: s') →
      (∀ m mid z, (smallNumber m).isSome → mid ≠ [] → s ≠ some m :: (mid ++ [none, z])) → ClassOf s (.ok .generic)

/-- What `is_valid` of a template says of a shape.  Only that of the multisig template fails, also where the shape is that of
another one. -/
inductive Validated (t : Template) : List (Option Byte) → Except Err Bool → Prop
  | yes {s} : Matches t s → Validated t s (.ok true)
  | no {s} : ¬ Matches t s → t ≠ .multisig → Validated t s (.ok false)
  | first {a b c s} : t = .multisig → Validated t (none :: a :: b :: c :: s) (.error .attributeError)
  | second {m mid z} : t = .multisig → (smallNumber m).isSome → mid ≠ [] →
      Validated t (some m :: (mid ++ [none, z])) (.error .attributeError)
  | multisig {s} : t = .multisig → ¬ Matches t s → (∀ a b c s', s ≠ none :: a :: b :: c :: s') →
      (∀ m mid z, (smallNumber m).isSome → mid ≠ [] → s ≠ some m :: (mid ++ [none, z])) → Validated t s (.ok false)

/-- The script of instructions, if they have a class. -/
inductive Classified (is : List Instruction) : Except Err Script → Prop
  | error {e} : ClassOf (shape (is.map Instruction.wire)) (.error e) → Classified is (.error e)
  | script {c} : ClassOf (shape (is.map Instruction.wire)) (.ok c) → Classified is (.ok ⟨c, is⟩)

/-- The instruction on the wire, with its data as an object of this type. -/
def instruction (k : Kind) (w : WireInstr) : Instruction := ⟨⟨w.1⟩, w.2.map fun d => ⟨k, d⟩⟩

/-- `Script.from_bytes`: the instructions one after the other, or the first one that is cut off. -/
inductive BytesRead (b : Bytes) : Except Err Script → Prop
  | script {ws r} : Encodes ws b → Classified (ws.map (instruction .bytearray)) r → BytesRead b r
  | direct {ws p op n s e} : Encodes ws p → b = p ++ op :: s → pushKind op = .direct n → Short n s e → BytesRead b (.error e)
  | count {ws p op w s e} : Encodes ws p → b = p ++ op :: s → pushKind op = .counted w → Short w s e → BytesRead b (.error e)
  | counted {ws p op w c s e} : Encodes ws p → b = p ++ op :: (c ++ s) → pushKind op = .counted w → c.length = w →
      Short (leValue c) s e → BytesRead b (.error e)

/-- `Script.from_string`: the instructions that the words spell, or the first words that spell none. -/
inductive TextRead (t : Text) : Except Err Script → Prop
  | script {toks ws r} : t = [' '].intercalate toks → toks ≠ [] → (∀ w ∈ toks, ' ' ∉ w) → Spelled toks ws →
      Classified (ws.map (instruction .str)) r → TextRead t r
  | refused {toks e} : t = [' '].intercalate toks → toks ≠ [] → (∀ w ∈ toks, ' ' ∉ w) → Refused toks e → TextRead t (.error e)

/-- `Script.compile`: the instructions that the elements stand for, or the first element that stands for none. -/
inductive Compiled (l : List SchemItem) : Except Err Script → Prop
  | script {is r} : List.Forall₂ SchemItem.Denotes l is → Classified is r → Compiled l r
  | refused {pre x post is} : l = pre ++ x :: post → List.Forall₂ SchemItem.Denotes pre is → (∀ i, ¬ x.Denotes i) →
      Compiled l (.error x.refusal)

/-- What is found at a place of a list, if there is one. -/
inductive ItemAt {α : Type} (n : Nat) (R : Instruction → Except Err α → Prop) (is : List Instruction) : Except Err α → Prop
  | short : is.length ≤ n → ItemAt n R is (.error .indexError)
  | item {pre i post r} : is = pre ++ i :: post → pre.length = n → R i r → ItemAt n R is r

/-- The script that is pushed last. -/
inductive LastScript (is : List Instruction) : Except Err Script → Prop
  | empty : is = [] → LastScript is (.error .indexError)
  | opcode {pre i} : is = pre ++ [i] → i.data = none → LastScript is (.error .typeError)
  | script {pre i d r} : is = pre ++ [i] → i.data = some d → BytesRead d.val r → LastScript is r

/-- Without the first and the last instruction, or nothing. -/
inductive Inner : List Instruction → List Instruction → Prop
  | short {is} : is.length < 2 → Inner is []
  | inner {i mid j} : Inner (i :: (mid ++ [j])) mid

/-- The keys that are pushed after the first and before the last two instructions. -/
inductive KeysRead : List Instruction → Except Err (List PublicKey) → Prop
  | short {is} : is.length < 3 → KeysRead is (.ok [])
  | inner {i mid j k r} : EachMade KeyRead mid r → KeysRead (i :: (mid ++ [j, k])) r

/-- `push_data` and `remove_opcode_by_data`: they never return. -/
inductive Edited (d : Data) : Except Err Unit → Prop
  | push {e} : PushBuilt d (.error e) → Edited d (.error e)
  | missing {i} : PushBuilt d (.ok i) → Edited d (.error .attributeError)

/-! ## Classes -/

/-- The two shapes that trip the multisig template. -/
def Trips (s : List (Option Byte)) : Prop := (∃ a b c s', s = none :: a :: b :: c :: s') ∨
  ∃ m mid z, (smallNumber m).isSome ∧ mid ≠ [] ∧ s = some m :: (mid ++ [none, z])

theorem trips_iff (s : List (Option Byte)) :
    (4 ≤ s.length ∧ (s.head? = some none ∨
      (∃ m, s.head? = some (some m) ∧ (smallNumber m).isSome) ∧ s[s.length - 2]? = some none)) ↔ Trips s := by
  unfold Trips
  constructor
  · rintro ⟨hl, h⟩
    match s, hl with
    | x :: a :: b :: c :: s', _ =>
    rcases h with h | ⟨⟨m, h1, h2⟩, h3⟩
    · left
      simp only [List.head?_cons, Option.some.injEq] at h
      subst h
      exact ⟨a, b, c, s', rfl⟩
    · right
      simp only [List.head?_cons, Option.some.injEq] at h1
      subst h1
      generalize hs : a :: b :: c :: s' = l at h3 ⊢
      have hl : 3 ≤ l.length := by rw [← hs]; simp
      rcases List.eq_nil_or_concat l with rfl | ⟨l', z, rfl⟩
      · simp at hl
      rcases List.eq_nil_or_concat l' with rfl | ⟨mid, y, rfl⟩
      · simp at hl
      refine ⟨m, mid, z, h2, ?_, ?_⟩
      · rintro rfl; simp at hl
      · simp only [List.concat_eq_append, List.length_cons, List.length_append, List.length_nil] at h3
        rw [show mid.length + (0 + 1) + (0 + 1) + 1 - 2 = mid.length + 1 by omega, List.getElem?_cons_succ,
          List.getElem?_append_left (by simp), List.getElem?_append_right (le_refl _)] at h3
        simp only [Nat.sub_self, List.getElem?_cons_zero, Option.some.injEq] at h3
        subst h3
        simp
  · rintro (⟨a, b, c, s', rfl⟩ | ⟨m, mid, z, h1, h2, rfl⟩)
    · exact ⟨by simp, .inl rfl⟩
    · have := List.length_pos_iff.2 h2
      refine ⟨by simp; omega, .inr ⟨⟨m, rfl, h1⟩, ?_⟩⟩
      simp only [List.length_cons, List.length_append, List.length_nil]
      rw [show mid.length + (0 + 1 + 1) + 1 - 2 = mid.length + 1 by omega, List.getElem?_cons_succ,
        List.getElem?_append_right (le_refl _)]
      simp

theorem crashes_iff (s : List (Option Byte)) : Crashes s ↔
    (∃ a b c s', s = none :: a :: b :: c :: s') ∨
      ∃ m mid z, (smallNumber m).isSome ∧ mid ≠ [] ∧ s = some m :: (mid ++ [none, z]) ∧ ¬ Matches .p2shIn s := by
  have h := trips_iff s
  unfold Crashes
  constructor
  · rintro ⟨h1, h2, h3⟩
    rcases h.1 ⟨h1, h3⟩ with h4 | ⟨m, mid, z, h4, h5, h6⟩
    · exact .inl h4
    · exact .inr ⟨m, mid, z, h4, h5, h6, h2⟩
  · rintro (h4 | ⟨m, mid, z, h4, h5, h6, h7⟩)
    · obtain ⟨h1, h3⟩ := h.2 (.inl h4)
      refine ⟨h1, ?_, h3⟩
      obtain ⟨a, b, c, s', rfl⟩ := h4
      rintro ⟨k, -, hk⟩
      cases hk
    · obtain ⟨h1, h3⟩ := h.2 (.inr ⟨m, mid, z, h4, h5, h6⟩)
      exact ⟨h1, h7, h3⟩

theorem template_cases (c : ScriptClass) : c = .generic ∨ ∃ t, c.template = some t := by
  cases c
  · exact .inl rfl
  all_goals exact .inr ⟨_, rfl⟩

theorem generic_template : ScriptClass.template .generic = none := rfl

/-- C129. What `Script.classify` does with every list of instructions. -/
theorem C129_classify (is : List Instruction) (r : Except Err ScriptClass) :
    Script.classify is = r ↔ ClassOf (shape (is.map Instruction.wire)) r := by
  refine graph (f := Script.classify) (R := fun is r => ClassOf (shape (is.map Instruction.wire)) r) ?_ ?_ is r
  · intro is r h
    generalize hs : shape (is.map Instruction.wire) = s at h
    have hc := classify_spec is
    rw [hs] at hc
    cases h with
    | template h1 h2 => exact classify_of_shape is _ _ h1 (hs ▸ h2)
    | first =>
      rcases hc with ⟨-, h⟩ | ⟨h, -⟩
      · exact h
      · exact absurd ((crashes_iff _).2 (.inl ⟨_, _, _, _, rfl⟩)) h
    | second h1 h2 h3 =>
      rcases hc with ⟨-, h⟩ | ⟨h, -⟩
      · exact h
      · exact absurd ((crashes_iff _).2 (.inr ⟨_, _, _, h1, h2, rfl, h3⟩)) h
    | none h1 h2 h3 =>
      rcases hc with ⟨h, -⟩ | ⟨-, c, hc, hm⟩
      · rcases (crashes_iff _).1 h with ⟨a, b, c, s', h⟩ | ⟨m, mid, z, h4, h5, h6, -⟩
        · exact absurd h (h2 a b c s')
        · exact absurd h6 (h3 m mid z h4 h5)
      · rcases template_cases c with rfl | ⟨t, ht⟩
        · exact hc
        · exact absurd ((hm t).1 ht) (h1 t)
  · intro is
    rcases classify_spec is with ⟨h, -⟩ | ⟨h, c, hc, hm⟩
    · rcases (crashes_iff _).1 h with ⟨a, b, c, s', h⟩ | ⟨m, mid, z, h4, h5, h6, h7⟩
      · rw [h]; exact ⟨_, .first⟩
      · rw [h6] at h7 ⊢
        exact ⟨_, .second h4 h5 h7⟩
    · rcases template_cases c with rfl | ⟨t, ht⟩
      · refine ⟨_, .none (fun t ht => ?_) (fun a b c s' he => h ((crashes_iff _).2 (.inl ⟨_, _, _, _, he⟩)))
          fun m mid z h4 h5 h6 => h ((crashes_iff _).2 (.inr ⟨_, _, _, h4, h5, h6, fun hp => ?_⟩))⟩
        · have := (hm t).2 ht
          rw [generic_template] at this
          cases this
        · have := (hm .p2shIn).2 hp
          rw [generic_template] at this
          cases this
      · exact ⟨_, .template ht ((hm t).1 ht)⟩

/-- C129. What `is_valid` of each template says of every list of instructions. -/
theorem C129_is_valid (t : Template) (is : List Instruction) (r : Except Err Bool) :
    isValidFor t (getStructure is) = r ↔ Validated t (shape (is.map Instruction.wire)) r := by
  have bool : ∀ {x : Except Err Bool}, (∃ b, x = .ok b) → x ≠ .ok true → x = .ok false := by
    rintro _ ⟨b, rfl⟩ h
    cases b
    · rfl
    · exact absurd rfl h
  have simple : t ≠ .multisig → ∃ b, isValidFor t (getStructure is) = .ok b := by
    intro h
    cases t
    all_goals first | exact ⟨_, rfl⟩ | exact absurd rfl h
  have hv := C32_is_valid t is
  have hr : (Trips (shape (is.map Instruction.wire)) ∧ RedeemMultisig.isValid (getStructure is) = .error .attributeError) ∨
      (¬ Trips (shape (is.map Instruction.wire)) ∧ ∃ r, RedeemMultisig.isValid (getStructure is) = .ok r) := by
    have hr := redeem_spec (shape (is.map Instruction.wire))
    rw [← getStructure_eq] at hr
    rcases hr with ⟨h1, h2, h3⟩ | ⟨h1, r, h2, -⟩
    · exact .inl ⟨(trips_iff _).1 ⟨h1, h2⟩, h3⟩
    · exact .inr ⟨fun h => h1 ((trips_iff _).2 h), r, h2⟩
  have sound : ∀ r, Validated t (shape (is.map Instruction.wire)) r → isValidFor t (getStructure is) = r := by
    intro r h
    generalize shape (is.map Instruction.wire) = s at h hv hr
    cases h with
    | yes h => exact hv.2 h
    | no h1 h2 => exact bool (simple h2) fun h => h1 (hv.1 h)
    | first h =>
      subst h
      rcases hr with ⟨-, h⟩ | ⟨h, -⟩
      · exact h
      · exact absurd (.inl ⟨_, _, _, _, rfl⟩) h
    | second h h1 h2 =>
      subst h
      rcases hr with ⟨-, h⟩ | ⟨h, -⟩
      · exact h
      · exact absurd (.inr ⟨_, _, _, h1, h2, rfl⟩) h
    | multisig h h1 h2 h3 =>
      subst h
      rcases hr with ⟨h, -⟩ | ⟨-, b, h⟩
      · rcases h with ⟨a, b, c, s', h⟩ | ⟨m, mid, z, h4, h5, h6⟩
        · exact absurd h (h2 a b c s')
        · exact absurd h6 (h3 m mid z h4 h5)
      · exact bool ⟨b, h⟩ fun h => h1 (hv.1 h)
  have total : ∃ r, Validated t (shape (is.map Instruction.wire)) r := by
    generalize shape (is.map Instruction.wire) = s at hr
    by_cases hm : Matches t s
    · exact ⟨_, .yes hm⟩
    by_cases ht : t = .multisig
    · rcases hr with ⟨⟨a, b, c, s', rfl⟩ | ⟨m, mid, z, h1, h2, rfl⟩, -⟩ | ⟨h, -⟩
      · exact ⟨_, .first ht⟩
      · exact ⟨_, .second ht h1 h2⟩
      · exact ⟨_, .multisig ht hm (fun a b c s' he => h (.inl ⟨_, _, _, _, he⟩))
          fun m mid z h4 h5 h6 => h (.inr ⟨_, _, _, h4, h5, h6⟩)⟩
    · exact ⟨_, .no hm ht⟩
  constructor
  · rintro rfl
    obtain ⟨r, h⟩ := total
    rw [sound r h]
    exact h
  · exact sound r

/-- C129. What `Script.create` does with every list of instructions. -/
theorem C129_create (is : List Instruction) (r : Except Err Script) : Script.create is = r ↔ Classified is r := by
  refine graph (f := Script.create) ?_ ?_ is r
  · intro is r h
    unfold Script.create
    cases h with
    | error h => rw [(C129_classify _ _).2 h]
    | script h => rw [(C129_classify _ _).2 h]
  · intro is
    have h := (C129_classify is _).1 rfl
    cases hc : Script.classify is with
    | error e => rw [hc] at h; exact ⟨_, .error h⟩
    | ok c => rw [hc] at h; exact ⟨_, .script h⟩

/-! ## Readers -/

theorem encodes_wires {ws : List WireInstr} {b : Bytes} (h : Encodes ws b) :
    Script.fromBytes b = Script.create (ws.map (instruction .bytearray)) := by
  exact fromBytes_encodes ws b h

/-- C129. What every byte string is read as. -/
theorem C129_bytes (b : Bytes) (r : Except Err Script) : Script.fromBytes b = r ↔ BytesRead b r := by
  refine graph (f := Script.fromBytes) ?_ ?_ b r
  · intro b r h
    cases h with
    | script h1 h2 => rw [encodes_wires h1]; exact (C129_create _ _).2 h2
    | direct h1 h2 h3 h4 => subst h2; exact (C117_script _ _).2 (.direct h1 h3 h4)
    | count h1 h2 h3 h4 => subst h2; exact (C117_script _ _).2 (.count h1 h3 h4)
    | counted h1 h2 h3 h4 h5 => subst h2; exact (C117_script _ _).2 (.counted h1 h3 h4 h5)
  · intro b
    by_cases hw : ∃ ws, Encodes ws b
    · obtain ⟨ws, hw⟩ := hw
      exact ⟨_, .script hw ((C129_create _ _).1 rfl)⟩
    · obtain ⟨x, y, h, -⟩ := C30_truncated b hw
      have h' := (C117_script b _).1 h
      refine ⟨.error (.insufficientData x y), ?_⟩
      generalize Err.insufficientData x y = e at h'
      cases h' with
      | trips h1 _ => exact absurd ⟨_, h1⟩ hw
      | direct h1 h2 h3 => exact .direct h1 rfl h2 h3
      | count h1 h2 h3 => exact .count h1 rfl h2 h3
      | counted h1 h2 h3 h4 => exact .counted h1 rfl h2 h3 h4

theorem fromText_words {toks : List Text} (hne : toks ≠ []) (hs : ∀ w ∈ toks, ' ' ∉ w) :
    Script.fromText ([' '].intercalate toks) = match Script.readTokens toks with
      | .error e => .error e
      | .ok is => Script.create is := by
  unfold Script.fromText
  rw [intercalate_words hne hs]
  cases Script.readTokens toks <;> rfl

/-- C129. What every text is read as. -/
theorem C129_text (t : Text) (r : Except Err Script) : Script.fromText t = r ↔ TextRead t r := by
  refine graph (f := Script.fromText) ?_ ?_ t r
  · intro t r h
    cases h with
    | script h1 h2 h3 h4 h5 =>
      subst h1
      rw [fromText_words h2 h3, readTokens_spelled h4]
      exact (C129_create _ _).2 h5
    | refused h1 h2 h3 h4 =>
      subst h1
      rw [fromText_words h2 h3, readTokens_refused h4]
  · intro t
    obtain ⟨toks, ⟨h1, h2, h3⟩, -⟩ := C108_words t
    rcases C108_total toks with ⟨⟨ws, hw, -⟩, -⟩ | ⟨-, e, he, -⟩
    · exact ⟨_, .script h3 h1 h2 hw ((C129_create _ _).1 rfl)⟩
    · exact ⟨_, .refused h3 h1 h2 he⟩

/-- C129. What every schematic is compiled to. -/
theorem C129_compile (l : List SchemItem) (r : Except Err Script) : Script.compile l = r ↔ Compiled l r := by
  refine graph (f := Script.compile) ?_ ?_ l r
  · intro l r h
    cases h with
    | script h1 h2 =>
      unfold Script.compile
      rw [(toInstructions_denotes _ _).2 h1]
      exact (C129_create _ _).2 h2
    | refused h1 h2 h3 =>
      subst h1
      exact C93_refusals _ _ _ _ h2 h3
  · intro l
    have h : (∃ is, List.Forall₂ SchemItem.Denotes l is) ∨ ∃ pre x post is, l = pre ++ x :: post ∧
        List.Forall₂ SchemItem.Denotes pre is ∧ ∀ i, ¬ x.Denotes i := by
      induction l with
      | nil => exact .inl ⟨[], .nil⟩
      | cons x l ih =>
        by_cases hx : ∃ i, x.Denotes i
        · obtain ⟨i, hi⟩ := hx
          rcases ih with ⟨is, h⟩ | ⟨pre, y, post, is, rfl, h1, h2⟩
          · exact .inl ⟨i :: is, .cons hi h⟩
          · exact .inr ⟨x :: pre, y, post, i :: is, rfl, .cons hi h1, h2⟩
        · exact .inr ⟨[], x, l, [], rfl, .nil, fun i hi => hx ⟨i, hi⟩⟩
    rcases h with ⟨is, h⟩ | ⟨pre, x, post, is, h1, h2, h3⟩
    · exact ⟨_, .script h ((C129_create _ _).1 rfl)⟩
    · exact ⟨_, .refused h1 h2 h3⟩

/-! ## Getters -/

theorem item_at {α : Type} {n : Nat} {R : Instruction → Except Err α → Prop} {f : Instruction → Except Err α}
    {g : Script → Except Err α} (hf : ∀ i r, f i = r ↔ R i r)
    (hg : ∀ s, g s = match s.instructions[n]? with
      | none => .error .indexError
      | some i => f i) (s : Script) (r : Except Err α) : g s = r ↔ ItemAt n R s.instructions r := by
  refine graph (f := g) (R := fun s r => ItemAt n R s.instructions r) ?_ ?_ s r
  · intro s r h
    rw [hg]
    generalize s.instructions = is at h
    cases h with
    | short h => rw [List.getElem?_eq_none h]
    | item h1 h2 h3 =>
      subst h1
      rw [← h2, List.getElem?_append_right (le_refl _)]
      simp only [Nat.sub_self, List.getElem?_cons_zero]
      exact (hf _ _).2 h3
  · intro s
    by_cases h : s.instructions.length ≤ n
    · exact ⟨_, .short h⟩
    · refine ⟨f (s.instructions[n]'(by omega)), .item (pre := s.instructions.take n) (i := s.instructions[n]'(by omega))
        (post := s.instructions.drop (n + 1)) ?_ ?_ ((hf _ _).1 rfl)⟩
      · rw [← List.drop_eq_getElem_cons (by omega), List.take_append_drop]
      · rw [List.length_take]; omega

theorem data_at (n : Nat) (s : Script) (r : Except Err (Option Data)) :
    dataAt s n = r ↔ ItemAt n (fun i r => r = .ok i.data) s.instructions r :=
  item_at (f := fun i => .ok i.data) (g := fun s => dataAt s n) (fun _ _ => eq_comm) (fun _ => rfl) s r

/-- C129. The getters that return what is pushed: the data of one instruction, whatever it is. -/
theorem C129_data (s : Script) (r : Except Err (Option Data)) :
    (PayToPubkeyIn.getSignature s = r ↔ ItemAt 0 (fun i r => r = .ok i.data) s.instructions r) ∧
    (PayToPubkeyOut.getAddressHash s = r ↔ ItemAt 2 (fun i r => r = .ok i.data) s.instructions r) ∧
    (PayToScriptOut.getScriptHash s = r ↔ ItemAt 1 (fun i r => r = .ok i.data) s.instructions r) ∧
    (OpReturnOut.getData s = r ↔ ItemAt 1 (fun i r => r = .ok i.data) s.instructions r) :=
  ⟨data_at 0 s r, data_at 2 s r, data_at 1 s r, data_at 1 s r⟩

/-- C129. The key in a script that spends the output of an address. -/
theorem C129_key (s : Script) (r : Except Err PublicKey) :
    PayToPubkeyIn.getPublicKey s = r ↔ ItemAt 1 KeyRead s.instructions r := by
  refine item_at (f := fun i => publicKeyOf i.data) key_read (fun s => ?_) s r
  unfold PayToPubkeyIn.getPublicKey dataAt
  cases s.instructions[1]? <;> rfl

/-- C129. The number of signatures that several keys need. -/
theorem C129_threshold (s : Script) (r : Except Err Int) :
    RedeemMultisig.getMinSignatures s = r ↔ ItemAt 0 (fun i => NumberRead i.opcode) s.instructions r :=
  item_at (f := fun i => i.opcode.numberValue) (fun i r => C124_number_value i.opcode r) (fun _ => rfl) s r

/-- C129. The redeem script in a script that spends the output of a script. -/
theorem C129_redeem (s : Script) (r : Except Err Script) : PayToScriptIn.getScript s = r ↔ LastScript s.instructions r := by
  refine graph (f := PayToScriptIn.getScript) (R := fun s r => LastScript s.instructions r) ?_ ?_ s r
  · intro s r h
    unfold PayToScriptIn.getScript
    generalize s.instructions = is at h
    cases h with
    | empty h => subst h; rfl
    | opcode h1 h2 => subst h1; simp only [List.getLast?_concat, h2]
    | script h1 h2 h3 =>
      subst h1
      simp only [List.getLast?_concat, h2]
      exact (C129_bytes _ _).2 h3
  · intro s
    rcases List.eq_nil_or_concat s.instructions with h | ⟨pre, i, h⟩
    · exact ⟨_, .empty h⟩
    · rw [List.concat_eq_append] at h
      cases hd : i.data with
      | none => exact ⟨_, .opcode h hd⟩
      | some d => exact ⟨_, .script h hd ((C129_bytes _ _).1 rfl)⟩

/-- C129. The signatures in a script that spends the output of a script. -/
theorem C129_signatures (s : Script) : ∃ mid, Inner s.instructions mid ∧ (∀ mid', Inner s.instructions mid' → mid' = mid) ∧
    PayToScriptIn.getSignatures s = mid.map (·.data) := by
  unfold PayToScriptIn.getSignatures
  generalize s.instructions = is
  rcases Nat.lt_or_ge is.length 2 with h | h
  · refine ⟨[], .short h, ?_, ?_⟩
    · intro mid' h'
      cases h' with
      | short => rfl
      | inner => simp at h
    · rw [List.drop_eq_nil_of_le (by rw [List.length_take]; omega)]
  · match is, h with
    | i :: l, h =>
    rcases List.eq_nil_or_concat l with rfl | ⟨mid, j, rfl⟩
    · simp at h
    rw [List.concat_eq_append]
    refine ⟨mid, .inner, ?_, ?_⟩
    · intro mid' h'
      generalize hx : i :: (mid ++ [j]) = x at h'
      cases h' with
      | short h' => subst hx; simp at h'
      | inner =>
        have := (List.cons.inj hx).2
        exact (List.append_inj' this rfl).1.symm
    · simp

/-- C129. The keys in a script of several keys. -/
theorem C129_keys (s : Script) (r : Except Err (List PublicKey)) :
    RedeemMultisig.getPublicKeys s = r ↔ KeysRead s.instructions r := by
  have each : ∀ (mid : List Instruction) r, mid.mapM (fun i => publicKeyOf i.data) = r ↔ EachMade KeyRead mid r :=
    each_graph (f := fun i => publicKeyOf i.data) key_read rfl
      (fun x xs e h => by simp only [List.mapM_cons, h]; rfl)
      (fun x xs y e h h' => by simp only [List.mapM_cons, h, h']; rfl)
      (fun x xs y ys h h' => by simp only [List.mapM_cons, h, h']; rfl)
  refine graph (f := RedeemMultisig.getPublicKeys) (R := fun s r => KeysRead s.instructions r) ?_ ?_ s r
  · intro s r h
    unfold RedeemMultisig.getPublicKeys
    generalize s.instructions = is at h
    cases h with
    | short h =>
      rw [List.drop_eq_nil_of_le (by rw [List.length_take]; omega)]
      rfl
    | @inner i mid j k _ h =>
      rw [← each] at h
      rw [← h]
      congr 1
      simp
  · intro s
    generalize s.instructions = is
    rcases Nat.lt_or_ge is.length 3 with h | h
    · exact ⟨_, .short h⟩
    · match is, h with
      | i :: l, h =>
      rcases List.eq_nil_or_concat l with rfl | ⟨l', k, rfl⟩
      · simp at h
      rcases List.eq_nil_or_concat l' with rfl | ⟨mid, j, rfl⟩
      · simp at h
      refine ⟨_, (?_ : KeysRead _ (mid.mapM fun i => publicKeyOf i.data))⟩
      have : i :: ((mid.concat j).concat k) = i :: (mid ++ [j, k]) := by simp
      rw [this]
      exact .inner ((each _ _).1 rfl)

/-- C129. What `push_data` and `remove_opcode_by_data` do with all data. -/
theorem C129_edit (s : Script) (d : Data) (r : Except Err Unit) :
    (s.pushData d = r ↔ Edited d r) ∧ (s.removeOpcodeByData d = r ↔ Edited d r) := by
  have h : ∀ r, s.pushData d = r ↔ Edited d r := by
    intro r
    refine graph (f := s.pushData) ?_ ?_ d r
    · intro d r h
      unfold Script.pushData
      cases h with
      | push h => rw [(C124_push_instruction _ _).2 h]
      | missing h => rw [(C124_push_instruction _ _).2 h]
    · intro d
      have h := (C124_push_instruction d _).1 rfl
      cases hp : Instruction.pushFor d with
      | error e => rw [hp] at h; exact ⟨_, .push h⟩
      | ok i => rw [hp] at h; exact ⟨_, .missing h⟩
  exact ⟨h r, h r⟩

/-! ## Examples -/

/-- Four pushes have no class, whatever reads them; a redeem script of one key does. -/
example : BytesRead [1, 7, 1, 7, 1, 7, 1, 7] (.error .attributeError) ∧
    TextRead "OP_0 1 0x07 1 0x08".toList
      (.ok ⟨.payToScriptIn, [⟨⟨0⟩, none⟩, ⟨⟨1⟩, some ⟨.str, [7]⟩⟩, ⟨⟨1⟩, some ⟨.str, [8]⟩⟩]⟩) ∧
    Compiled [.opcode (.num 81), .bytes ⟨.str, [7]⟩, .opcode (.num 81), .opcode (.num 174)]
      (.ok ⟨.redeemMultisig, [⟨⟨81⟩, none⟩, ⟨⟨1⟩, some ⟨.str, [7]⟩⟩, ⟨⟨81⟩, none⟩, ⟨⟨174⟩, none⟩]⟩) :=
  ⟨(C129_bytes _ _).1 (by decide +kernel), (C129_text _ _).1 (by decide +kernel), (C129_compile _ _).1 (by decide +kernel)⟩

/-- OP_0, three pushes: a script of signatures, on which the multisig template fails nevertheless. -/
example : ClassOf [some 0, none, none, none] (.ok .payToScriptIn) ∧
    Validated .multisig [some 0, none, none, none] (.error .attributeError) ∧
    ClassOf [some 81, some 174, none, some 174] (.error .attributeError) :=
  ⟨.template (t := .p2shIn) rfl ⟨3, by decide, rfl⟩, .second (mid := [none]) rfl rfl (by simp),
    .second (mid := [some 174]) rfl (by simp) (by rintro ⟨k, -, h⟩; cases h)⟩

/-- The getters on a script of a parsed transaction: the keys are never found. -/
example : KeysRead [⟨⟨81⟩, none⟩, ⟨⟨1⟩, some ⟨.bytearray, [7]⟩⟩, ⟨⟨81⟩, none⟩, ⟨⟨174⟩, none⟩] (.error .pubInvalidBinary) ∧
    ItemAt 0 (fun i => NumberRead i.opcode) [⟨⟨81⟩, none⟩] (.ok 1) ∧
    LastScript [⟨⟨0⟩, none⟩, ⟨⟨1⟩, some ⟨.bytearray, [5]⟩⟩] (.error (.insufficientData 0 5)) :=
  ⟨.inner (mid := [_]) (.here .kind), .item (pre := []) rfl rfl (.number (n := 1) rfl),
    .script (pre := [_]) rfl rfl ((C129_bytes _ _).1 (by decide +kernel))⟩

example : Edited ⟨.str, []⟩ (.error .opInvalidConstPushLength) ∧ Edited ⟨.str, [7]⟩ (.error .attributeError) :=
  ⟨(C129_edit ⟨.generic, []⟩ _ _).1.1 (by decide +kernel), (C129_edit ⟨.generic, []⟩ _ _).1.1 (by decide +kernel)⟩

end Bitforge.Scripts
