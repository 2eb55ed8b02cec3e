import Verif.Props.TxParse
import Verif.Props.Errors
import Verif.Props.Codec

/-! # C117: why bytes are refused as a transaction -/

namespace Bitforge
open Spec

/-! ## The reasons

Each relation gives the byte strings that are refused, with the exception: the first field that does not fit decides. -/

/-- Fewer bytes than the field has. -/
inductive Short (n : Nat) : Bytes → Err → Prop
  | mk {s} : s.length < n → Short n s (.insufficientData s.length n)

/-- Not the beginning of a count. -/
inductive NoCount : Bytes → Err → Prop
  | empty : NoCount [] (.insufficientData 0 1)
  | two {s e} : Short 2 s e → NoCount (253 :: s) e
  | four {s e} : Short 4 s e → NoCount (254 :: s) e
  | eight {s e} : Short 8 s e → NoCount (255 :: s) e

/-- A script made of complete instructions that does not trip the classifier. -/
def Legible (b : Bytes) : Prop := ∃ ws, Encodes ws b ∧ ¬ Crashes (shape ws)

/-- Not such a script. -/
inductive NoScript : Bytes → Err → Prop
  | trips {ws b} : Encodes ws b → Crashes (shape ws) → NoScript b .attributeError
  | direct {ws p op n s e} : Encodes ws p → pushKind op = .direct n → Short n s e → NoScript (p ++ op :: s) e
  | count {ws p op w s e} : Encodes ws p → pushKind op = .counted w → Short w s e → NoScript (p ++ op :: s) e
  | counted {ws p op w c s e} : Encodes ws p → pushKind op = .counted w → c.length = w → Short (leValue c) s e →
      NoScript (p ++ op :: (c ++ s)) e

/-- Not the beginning of an input. -/
inductive NoInput : Bytes → Err → Prop
  | id {s e} : Short 32 s e → NoInput s e
  | index {h s e} : h.length = 32 → Short 4 s e → NoInput (h ++ s) e
  | count {h s e} : h.length = 36 → NoCount s e → NoInput (h ++ s) e
  | length {h n c s e} : h.length = 36 → CountForm n c → Short n s e → NoInput (h ++ (c ++ s)) e
  | script {h c b s e} : h.length = 36 → CountForm b.length c → NoScript b e → NoInput (h ++ (c ++ (b ++ s))) e
  | sequence {h c b s e} : h.length = 36 → CountForm b.length c → Legible b → Short 4 s e →
      NoInput (h ++ (c ++ (b ++ s))) e

/-- Not the beginning of an output. -/
inductive NoOutput : Bytes → Err → Prop
  | amount {s e} : Short 8 s e → NoOutput s e
  | count {h s e} : h.length = 8 → NoCount s e → NoOutput (h ++ s) e
  | length {h n c s e} : h.length = 8 → CountForm n c → Short n s e → NoOutput (h ++ (c ++ s)) e
  | script {h c b s e} : h.length = 8 → CountForm b.length c → NoScript b e → NoOutput (h ++ (c ++ (b ++ s))) e

/-- Inputs and outputs one after the other, with legible scripts. -/
def Inputs (is : List WireIn) (b : Bytes) : Prop := Listed WireIn.Form is b ∧ ∀ i ∈ is, i.Fits ∧ Legible i.script
def Outputs (os : List WireOut) (b : Bytes) : Prop := Listed WireOut.Form os b ∧ ∀ o ∈ os, o.Fits ∧ Legible o.script

/-- Not the beginning of a transaction. -/
inductive NoTx : Bytes → Err → Prop
  | version {s e} : Short 4 s e → NoTx s e
  | inputCount {v s e} : v.length = 4 → NoCount s e → NoTx (v ++ s) e
  | inputRange {v n c s} : v.length = 4 → CountForm n c → 2 ^ 63 ≤ n → NoTx (v ++ (c ++ s)) .overflowError
  | input {v n c is b s e} : v.length = 4 → CountForm n c → n < 2 ^ 63 → Inputs is b → is.length < n → NoInput s e →
      NoTx (v ++ (c ++ (b ++ s))) e
  | outputCount {v c is b s e} : v.length = 4 → CountForm is.length c → is.length < 2 ^ 63 → Inputs is b → NoCount s e →
      NoTx (v ++ (c ++ (b ++ s))) e
  | outputRange {v c is b m d s} : v.length = 4 → CountForm is.length c → is.length < 2 ^ 63 → Inputs is b →
      CountForm m d → 2 ^ 63 ≤ m → NoTx (v ++ (c ++ (b ++ (d ++ s)))) .overflowError
  | output {v c is b m d os b' s e} : v.length = 4 → CountForm is.length c → is.length < 2 ^ 63 → Inputs is b →
      CountForm m d → m < 2 ^ 63 → Outputs os b' → os.length < m → NoOutput s e →
      NoTx (v ++ (c ++ (b ++ (d ++ (b' ++ s))))) e
  | lockTime {v c is b d os b' s e} : v.length = 4 → CountForm is.length c → is.length < 2 ^ 63 → Inputs is b →
      CountForm os.length d → os.length < 2 ^ 63 → Outputs os b' → Short 4 s e →
      NoTx (v ++ (c ++ (b ++ (d ++ (b' ++ s))))) e
  | noInputs {v c d os b' s} : v.length = 4 → CountForm 0 c → CountForm os.length d → os.length < 2 ^ 63 →
      Outputs os b' → 4 ≤ s.length → NoTx (v ++ (c ++ (d ++ (b' ++ s)))) .txNoInputs
  | noOutputs {v c is b d s} : v.length = 4 → CountForm is.length c → is.length < 2 ^ 63 → Inputs is b → is ≠ [] →
      CountForm 0 d → 4 ≤ s.length → NoTx (v ++ (c ++ (b ++ (d ++ s)))) .txNoOutputs

/-! ## Readers -/

theorem bind_error_iff {α β : Type} {m : Rd α} {f : α → Rd β} {s : Bytes} {e : Err} :
    (Rd.bind m f s).1 = .error e ↔ (m s).1 = .error e ∨ ∃ a s1, m s = (.ok a, s1) ∧ (f a s1).1 = .error e := by
  unfold Rd.bind
  rcases m s with ⟨_ | a, s1⟩ <;> simp

theorem read_error_iff {n : Nat} {s : Bytes} {e : Err} : (Buffer.read n s).1 = .error e ↔ Short n s e := by
  unfold Buffer.read
  split
  · next h =>
    constructor
    · intro he
      injection he with he
      subst he
      exact .mk h
    · rintro ⟨-⟩
      rfl
  · next h =>
    constructor
    · intro he; cases he
    · rintro ⟨h'⟩
      exact absurd h' h

theorem lift_error_iff {α : Type} {x : Except Err α} {s : Bytes} {e : Err} : (Rd.lift x s).1 = .error e ↔ x = .error e :=
  Iff.rfl

theorem readVarint_ok_iff {s s' : Bytes} {n : Nat} :
    Buffer.readVarint s = (.ok n, s') ↔ ∃ c, CountForm n c ∧ s = c ++ s' :=
  ⟨readVarint_form_ok, fun ⟨_, h, hs⟩ => hs ▸ readVarint_form h s'⟩

theorem readVarint_error_iff {s : Bytes} {e : Err} : (Buffer.readVarint s).1 = .error e ↔ NoCount s e := by
  have fixed : ∀ (L : Nat) (r : Bytes),
      (Rd.bind (Buffer.read L) (fun b => Rd.pure (decodeInt b (bigEndian := false))) r).1 = .error e ↔ Short L r e := by
    intro L r
    rw [bind_error_iff, read_error_iff]
    constructor
    · rintro (h | ⟨_, _, _, h⟩)
      · exact h
      · cases h
    · exact .inl
  cases s with
  | nil =>
    rw [readVarint_nil]
    constructor
    · intro h
      injection h with h
      subst h
      exact .empty
    · rintro ⟨-⟩
      rfl
  | cons a r =>
    rw [readVarint_cons]
    by_cases h1 : a.val < 253
    · rw [if_pos h1]
      constructor
      · intro h; cases h
      · intro h
        cases h <;> exact absurd h1 (by decide)
    · rw [if_neg h1]
      by_cases h2 : a.val = 253
      · rw [if_pos h2]
        obtain rfl : a = 253 := Fin.ext h2
        rw [fixed]
        exact ⟨.two, fun h => by cases h; assumption⟩
      · rw [if_neg h2]
        by_cases h3 : a.val = 254
        · rw [if_pos h3]
          obtain rfl : a = 254 := Fin.ext h3
          rw [fixed]
          exact ⟨.four, fun h => by cases h; assumption⟩
        · rw [if_neg h3]
          obtain rfl : a = 255 := Fin.ext (by have := a.isLt; show a.val = 255; omega)
          rw [fixed]
          exact ⟨.eight, fun h => by cases h; assumption⟩

/-! ## Scripts -/

/-- An instruction that is cut off. -/
inductive NoInstr : Bytes → Err → Prop
  | direct {op n s e} : pushKind op = .direct n → Short n s e → NoInstr (op :: s) e
  | count {op w s e} : pushKind op = .counted w → Short w s e → NoInstr (op :: s) e
  | counted {op w c s e} : pushKind op = .counted w → c.length = w → Short (leValue c) s e → NoInstr (op :: (c ++ s)) e

theorem readInstruction_error_iff {op : Byte} {s : Bytes} {e : Err} :
    (Script.readInstruction (op :: s)).1 = .error e ↔ NoInstr (op :: s) e := by
  rw [readInstruction_cons]
  rcases hk : pushKind op with n | w | _ <;> simp only
  · rw [bind_error_iff, read_error_iff]
    constructor
    · rintro (h | ⟨_, _, _, h⟩)
      · exact .direct hk h
      · cases h
    · intro h
      cases h with
      | direct h1 h2 => rw [hk] at h1; cases h1; exact .inl h2
      | count h1 _ => rw [hk] at h1; cases h1
      | counted h1 _ _ => rw [hk] at h1; cases h1
  · rw [bind_error_iff, read_error_iff]
    constructor
    · rintro (h | ⟨c, s1, h1, h⟩)
      · exact .count hk h
      · obtain ⟨rfl, hl⟩ := (read_ok_iff _ _ _ _).1 h1
        rw [bind_error_iff, read_error_iff] at h
        rcases h with h | ⟨_, _, _, h⟩
        · exact .counted hk hl h
        · cases h
    · intro h
      cases h with
      | direct h1 _ => rw [hk] at h1; cases h1
      | count h1 h2 => rw [hk] at h1; cases h1; exact .inl h2
      | @counted _ _ c s' _ h1 h2 h3 =>
        rw [hk] at h1
        cases h1
        exact .inr ⟨c, s', (read_ok_iff _ _ _ _).2 ⟨rfl, h2⟩, bind_error_iff.2 (.inl (read_error_iff.2 h3))⟩
  · constructor
    · intro h; cases h
    · intro h
      cases h with
      | direct h1 _ => rw [hk] at h1; cases h1
      | count h1 _ => rw [hk] at h1; cases h1
      | counted h1 _ _ => rw [hk] at h1; cases h1

theorem noInstr_cons {b : Bytes} {e : Err} (h : NoInstr b e) : ∃ op s, b = op :: s := by cases h <;> exact ⟨_, _, rfl⟩

theorem readInstructions_error {ws : List WireInstr} {p r : Bytes} {e : Err} (hp : Encodes ws p) (hr : NoInstr r e) :
    ∀ fuel, (p ++ r).length ≤ fuel → (Script.readInstructions fuel (p ++ r)).1 = .error e := by
  obtain ⟨op, s, rfl⟩ := noInstr_cons hr
  induction hp with
  | nil =>
    intro fuel hf
    cases fuel with
    | zero => simp at hf
    | succ fuel =>
      simp only [Script.readInstructions, List.nil_append, if_neg (List.cons_ne_nil op s)]
      exact bind_error_iff.2 (.inl (readInstruction_error_iff.2 hr))
  | @cons w ws b bs hw hb _ ih =>
    intro fuel hf
    have hne := isWire_ne_nil hb
    have hlen : 0 < b.length := List.length_pos_iff.2 hne
    cases fuel with
    | zero => simp at hf
    | succ fuel =>
      simp only [Script.readInstructions]
      rw [if_neg (by simp)]
      rw [List.append_assoc]
      refine bind_error_iff.2 (.inr ⟨_, _, readInstruction_wire w b _ hw hb, bind_error_iff.2 (.inl (ih fuel ?_))⟩)
      simp only [List.length_append] at hf ⊢
      omega

theorem readInstructions_error_ok : ∀ (fuel : Nat) (b : Bytes) (e : Err),
    (Script.readInstructions fuel b).1 = .error e → ∃ ws p r, b = p ++ r ∧ Encodes ws p ∧ NoInstr r e := by
  intro fuel
  induction fuel with
  | zero => intro b e h; cases h
  | succ fuel ih =>
    intro b e h
    simp only [Script.readInstructions] at h
    cases b with
    | nil => rw [if_pos rfl] at h; cases h
    | cons op s =>
      rw [if_neg (List.cons_ne_nil op s), bind_error_iff] at h
      rcases h with h | ⟨i, s1, h1, h⟩
      · exact ⟨[], [], op :: s, rfl, .nil, readInstruction_error_iff.1 h⟩
      · rw [bind_error_iff] at h
        obtain ⟨w, q, hs, hw, hq, -, -⟩ := readInstruction_ok _ _ _ h1
        rcases h with h | ⟨_, _, _, h⟩
        · obtain ⟨ws, p, r, hr, hp, hn⟩ := ih _ _ h
          exact ⟨w :: ws, q ++ p, r, by rw [hs, hr, List.append_assoc], .cons hw hq hp, hn⟩
        · cases h

/-- C117. Bytes are refused as a script exactly for these reasons: an instruction that is cut off, or the classifier. -/
theorem C117_script (b : Bytes) (e : Err) : Script.fromBytes b = .error e ↔ NoScript b e := by
  have hcut : ∀ {ws p r e}, Encodes ws p → NoInstr r e → NoScript (p ++ r) e := by
    intro ws p r e hp hr
    cases hr with
    | direct h1 h2 => exact .direct hp h1 h2
    | count h1 h2 => exact .count hp h1 h2
    | counted h1 h2 h3 => exact .counted hp h1 h2 h3
  have hback : ∀ {ws p r e}, Encodes ws p → NoInstr r e → Script.fromBytes (p ++ r) = .error e := by
    intro ws p r e hp hr
    exact bind_error_iff.2 (.inl (readInstructions_error hp hr _ (le_refl _)))
  constructor
  · intro h
    rcases bind_error_iff.1 (show (Rd.bind (Script.readInstructions b.length) (fun is => Rd.lift (Script.create is)) b).1 =
      .error e from h) with h1 | ⟨is, s1, h1, h2⟩
    · obtain ⟨ws, p, r, rfl, hp, hr⟩ := readInstructions_error_ok _ _ _ h1
      exact hcut hp hr
    · obtain ⟨-, ws, -, hw⟩ := readInstructions_ok _ _ _ _ (le_refl _) h1
      rcases C30_complete_partial ws b hw with ⟨-, s, hs, -⟩ | ⟨hc, hs⟩
      · rw [hs] at h; cases h
      · rw [hs] at h
        injection h with h
        subst h
        exact .trips hw hc
  · intro h
    cases h with
    | @trips ws _ h1 h2 =>
      rcases C30_complete_partial ws b h1 with ⟨hn, -⟩ | ⟨-, hs⟩
      · exact absurd h2 hn
      · exact hs
    | direct h1 h2 h3 => exact hback h1 (.direct h2 h3)
    | count h1 h2 h3 => exact hback h1 (.count h2 h3)
    | counted h1 h2 h3 h4 => exact hback h1 (.counted h2 h3 h4)

theorem fromBytes_ok_iff (b : Bytes) : (∃ s, Script.fromBytes b = .ok s) ↔ Legible b := by
  constructor
  · rintro ⟨s, hs⟩
    obtain ⟨⟨ws, hw⟩, hc⟩ := not_crashes hs
    exact ⟨ws, hw, fun h => hc ⟨ws, hw, h⟩⟩
  · rintro ⟨ws, hw, hc⟩
    rcases C30_complete_partial ws b hw with ⟨-, s, hs, -⟩ | ⟨h, -⟩
    · exact ⟨s, hs⟩
    · exact absurd h hc

theorem legible_iff (b : Bytes) : Complete b ∧ ¬ CrashesOn b ↔ Legible b := by
  constructor
  · rintro ⟨⟨ws, hw⟩, hc⟩
    exact ⟨ws, hw, fun h => hc ⟨ws, hw, h⟩⟩
  · rintro ⟨ws, hw, hc⟩
    exact ⟨⟨ws, hw⟩, fun h => hc ((crashesOn_iff hw).1 h)⟩

/-! ## Inputs and outputs -/

/-- The end of an input and of an output: a count, a script of this length, and what follows. -/
theorem script_error_iff {α : Type} {k : Script → Rd α} {N : Bytes → Err → Prop}
    (hk : ∀ b sc s e, Script.fromBytes b = .ok sc → ((k sc s).1 = .error e ↔ N s e)) (s : Bytes) (e : Err) :
    (Rd.bind Buffer.readVarint (fun n => Rd.bind (Buffer.read n) fun b => Rd.bind (Rd.lift (Script.fromBytes b)) k) s).1 =
      .error e ↔
    NoCount s e ∨ (∃ n c r, CountForm n c ∧ s = c ++ r ∧ Short n r e) ∨
      (∃ c b r, CountForm b.length c ∧ s = c ++ (b ++ r) ∧ NoScript b e) ∨
      ∃ c b r, CountForm b.length c ∧ s = c ++ (b ++ r) ∧ Legible b ∧ N r e := by
  rw [bind_error_iff, readVarint_error_iff]
  refine or_congr_right ?_
  constructor
  · rintro ⟨n, s1, h1, h⟩
    obtain ⟨c, hc, rfl⟩ := readVarint_ok_iff.1 h1
    rcases bind_error_iff.1 h with h' | ⟨b, s2, h2, h'⟩
    · exact .inl ⟨n, c, s1, hc, rfl, read_error_iff.1 h'⟩
    · obtain ⟨rfl, rfl⟩ := (read_ok_iff _ _ _ _).1 h2
      rcases bind_error_iff.1 h' with h'' | ⟨sc, s3, h3, h''⟩
      · exact .inr (.inl ⟨c, b, s2, hc, rfl, (C117_script b e).1 h''⟩)
      · injection h3 with h3 h4
        subst h4
        exact .inr (.inr ⟨c, b, s2, hc, rfl, (fromBytes_ok_iff b).1 ⟨sc, h3⟩, (hk _ _ _ _ h3).1 h''⟩)
  · rintro (⟨n, c, r, hc, rfl, h⟩ | ⟨c, b, r, hc, rfl, h⟩ | ⟨c, b, r, hc, rfl, hl, h⟩)
    · exact ⟨n, r, readVarint_form hc r, bind_error_iff.2 (.inl (read_error_iff.2 h))⟩
    · exact ⟨_, _, readVarint_form hc _, bind_error_iff.2 (.inr ⟨b, r, (read_ok_iff _ _ _ _).2 ⟨rfl, rfl⟩,
        bind_error_iff.2 (.inl ((C117_script b e).2 h))⟩)⟩
    · obtain ⟨sc, hs⟩ := (fromBytes_ok_iff b).2 hl
      exact ⟨_, _, readVarint_form hc _, bind_error_iff.2 (.inr ⟨b, r, (read_ok_iff _ _ _ _).2 ⟨rfl, rfl⟩,
        bind_error_iff.2 (.inr ⟨sc, r, by rw [Rd.lift, hs], (hk _ _ _ _ hs).2 h⟩)⟩)⟩

theorem input_error_iff (cls : InputClass) (s : Bytes) (e : Err) : (Input.fromBuffer cls s).1 = .error e ↔ NoInput s e := by
  have tail : ∀ (id ix : Bytes) (s : Bytes),
      (Rd.bind Buffer.readVarint (fun scriptLen => Rd.bind (Buffer.read scriptLen) fun scriptBytes =>
        Rd.bind (Rd.lift (Script.fromBytes scriptBytes)) fun script => Rd.bind (Buffer.read 4) fun seq =>
          Rd.pure (⟨cls, encodeHex id.reverse, decodeInt ix (bigEndian := false), script,
            decodeInt seq (bigEndian := false)⟩ : Input)) s).1 = .error e ↔ _ :=
    fun id ix s => script_error_iff (N := Short 4) (fun _ sc s e _ => by
      rw [bind_error_iff, read_error_iff]
      constructor
      · rintro (h | ⟨_, _, _, h⟩)
        · exact h
        · cases h
      · exact .inl) s e
  unfold Input.fromBuffer
  constructor
  · intro h
    rcases bind_error_iff.1 h with h' | ⟨id, s1, h1, h'⟩
    · exact .id (read_error_iff.1 h')
    obtain ⟨rfl, hid⟩ := (read_ok_iff _ _ _ _).1 h1
    rcases bind_error_iff.1 h' with h'' | ⟨ix, s2, h2, h''⟩
    · exact .index hid (read_error_iff.1 h'')
    obtain ⟨rfl, hix⟩ := (read_ok_iff _ _ _ _).1 h2
    have hl : (id ++ ix).length = 36 := by simp [hid, hix]
    rw [← List.append_assoc]
    rcases (tail id ix s2).1 h'' with g | ⟨n, c, r, hc, rfl, g⟩ | ⟨c, b, r, hc, rfl, g⟩ | ⟨c, b, r, hc, rfl, hb, g⟩
    · exact .count hl g
    · exact .length hl hc g
    · exact .script hl hc g
    · exact .sequence hl hc hb g
  · intro h
    have more : ∀ (q r : Bytes), q.length = 36 → (NoCount r e ∨ (∃ n c t, CountForm n c ∧ r = c ++ t ∧ Short n t e) ∨
        (∃ c b t, CountForm b.length c ∧ r = c ++ (b ++ t) ∧ NoScript b e) ∨
        ∃ c b t, CountForm b.length c ∧ r = c ++ (b ++ t) ∧ Legible b ∧ Short 4 t e) →
        (Input.fromBuffer cls (q ++ r)).1 = .error e := by
      intro q r hq h
      rw [← List.take_append_drop 32 q, List.append_assoc]
      refine bind_error_iff.2 (.inr ⟨_, _, (read_ok_iff _ _ _ _).2 ⟨rfl, by simp [hq]⟩,
        bind_error_iff.2 (.inr ⟨_, _, (read_ok_iff _ _ _ _).2 ⟨rfl, by simp [hq]⟩, (tail _ _ _).2 h⟩)⟩)
    cases h with
    | id h => exact bind_error_iff.2 (.inl (read_error_iff.2 h))
    | index h1 h2 =>
      exact bind_error_iff.2 (.inr ⟨_, _, (read_ok_iff _ _ _ _).2 ⟨rfl, h1⟩,
        bind_error_iff.2 (.inl (read_error_iff.2 h2))⟩)
    | count h1 h2 => exact more _ _ h1 (.inl h2)
    | length h1 h2 h3 => exact more _ _ h1 (.inr (.inl ⟨_, _, _, h2, rfl, h3⟩))
    | script h1 h2 h3 => exact more _ _ h1 (.inr (.inr (.inl ⟨_, _, _, h2, rfl, h3⟩)))
    | sequence h1 h2 h3 h4 => exact more _ _ h1 (.inr (.inr (.inr ⟨_, _, _, h2, rfl, h3, h4⟩)))

theorem output_error_iff (s : Bytes) (e : Err) : (Output.fromBuffer s).1 = .error e ↔ NoOutput s e := by
  have tail : ∀ (am : Bytes) (s : Bytes),
      (Rd.bind Buffer.readVarint (fun scriptLen => Rd.bind (Buffer.read scriptLen) fun scriptBytes =>
        Rd.bind (Rd.lift (Script.fromBytes scriptBytes)) fun script =>
          Rd.lift (Output.create (decodeInt am (bigEndian := false)) script)) s).1 = .error e ↔ _ :=
    fun am s => script_error_iff (N := fun _ _ => False) (fun b sc s e hs => by
      rw [lift_error_iff, iff_false]
      obtain ⟨ws, hw, hc⟩ := (fromBytes_ok_iff b).1 ⟨sc, hs⟩
      rcases script_fromBytes ws _ hw with ⟨-, s', hs', -, hcl⟩ | ⟨h, -⟩
      · rw [hs'] at hs
        injection hs with hs
        subst hs
        obtain ⟨o, ho, -⟩ := create_of_classify (decodeInt am (bigEndian := false)) s' hcl
        rw [ho]
        intro h
        cases h
      · exact absurd h hc) s e
  unfold Output.fromBuffer
  constructor
  · intro h
    rcases bind_error_iff.1 h with h' | ⟨am, s1, h1, h'⟩
    · exact .amount (read_error_iff.1 h')
    obtain ⟨rfl, hl⟩ := (read_ok_iff _ _ _ _).1 h1
    rcases (tail am s1).1 h' with g | ⟨n, c, r, hc, rfl, g⟩ | ⟨c, b, r, hc, rfl, g⟩ | ⟨_, _, _, _, _, _, g⟩
    · exact .count hl g
    · exact .length hl hc g
    · exact .script hl hc g
    · exact g.elim
  · intro h
    have more : ∀ (q r : Bytes), q.length = 8 → (NoCount r e ∨ (∃ n c t, CountForm n c ∧ r = c ++ t ∧ Short n t e) ∨
        (∃ c b t, CountForm b.length c ∧ r = c ++ (b ++ t) ∧ NoScript b e) ∨
        ∃ c b t, CountForm b.length c ∧ r = c ++ (b ++ t) ∧ Legible b ∧ False) →
        (Output.fromBuffer (q ++ r)).1 = .error e := by
      intro q r hq h
      exact bind_error_iff.2 (.inr ⟨_, _, (read_ok_iff _ _ _ _).2 ⟨rfl, hq⟩, (tail _ _).2 h⟩)
    cases h with
    | amount h => exact bind_error_iff.2 (.inl (read_error_iff.2 h))
    | count h1 h2 => exact more _ _ h1 (.inl h2)
    | length h1 h2 h3 => exact more _ _ h1 (.inr (.inl ⟨_, _, _, h2, rfl, h3⟩))
    | script h1 h2 h3 => exact more _ _ h1 (.inr (.inr (.inl ⟨_, _, _, h2, rfl, h3⟩)))

/-- C117. Bytes are refused as an input, and as an output, exactly for these reasons. -/
theorem C117_input (b : Bytes) (cls : InputClass) (e : Err) : Input.fromBytes b cls = .error e ↔ NoInput b e :=
  input_error_iff cls b e

theorem C117_output (b : Bytes) (e : Err) : Output.fromBytes b = .error e ↔ NoOutput b e := output_error_iff b e

/-! ## Transactions -/

theorem readMany_error_iff {α β : Type} {f : Rd α} {F : β → Bytes → Prop} {P : β → Prop} {N : Bytes → Err → Prop}
    (hok : ∀ y b rest, F y b → P y → ∃ x, f (b ++ rest) = (.ok x, rest))
    (hback : ∀ s x s', f s = (.ok x, s') → ∃ y b, s = b ++ s' ∧ F y b ∧ P y) (hN : ∀ s e, (f s).1 = .error e ↔ N s e) :
    ∀ (n : Nat) (s : Bytes) (e : Err), (Transaction.readMany f n s).1 = .error e ↔
      ∃ ys b r, s = b ++ r ∧ Listed F ys b ∧ (∀ y ∈ ys, P y) ∧ ys.length < n ∧ N r e := by
  intro n
  induction n with
  | zero =>
    intro s e
    constructor
    · intro h; cases h
    · rintro ⟨_, _, _, _, _, _, h, _⟩
      exact absurd h (Nat.not_lt_zero _)
  | succ n ih =>
    intro s e
    simp only [Transaction.readMany]
    rw [bind_error_iff, hN]
    constructor
    · rintro (h | ⟨x, s1, h1, h⟩)
      · exact ⟨[], [], s, rfl, .nil, by simp, by simp, h⟩
      · rcases bind_error_iff.1 h with h' | ⟨_, _, _, h'⟩
        · obtain ⟨y, b, rfl, hF, hP⟩ := hback _ _ _ h1
          obtain ⟨ys, b', r, rfl, hL, hA, hn, hr⟩ := (ih _ _).1 h'
          exact ⟨y :: ys, b ++ b', r, by simp, .cons hF hL, by simpa using ⟨hP, hA⟩, by simpa using hn, hr⟩
        · cases h'
    · rintro ⟨ys, b, r, rfl, hL, hA, hn, hr⟩
      cases hL with
      | nil => exact .inl hr
      | @cons y b ys bs hy hys =>
        right
        obtain ⟨x, hx⟩ := hok y b (bs ++ r) hy (hA y (by simp))
        refine ⟨x, bs ++ r, by rw [List.append_assoc, hx], bind_error_iff.2 (.inl ((ih _ _).2 ⟨ys, bs, r, rfl, hys,
          fun z hz => hA z (by simp [hz]), by simpa using hn, hr⟩))⟩

theorem readMany_length {α : Type} {f : Rd α} : ∀ {n : Nat} {s s' : Bytes} {xs : List α},
    Transaction.readMany f n s = (.ok xs, s') → xs.length = n := by
  intro n
  induction n with
  | zero =>
    intro s s' xs h
    injection h with h _
    injection h with h
    rw [← h]
    rfl
  | succ n ih =>
    intro s s' xs h
    obtain ⟨x, s1, -, h⟩ := Rd.bind_ok_iff.1 h
    obtain ⟨xs', s2, h2, h⟩ := Rd.bind_ok_iff.1 h
    injection h with h _
    injection h with h
    rw [← h, List.length_cons, ih h2]

theorem readMany_ok_iff {α β : Type} {f : Rd α} {F : β → Bytes → Prop} {P : β → Prop}
    (hok : ∀ y b rest, F y b → P y → ∃ x, f (b ++ rest) = (.ok x, rest))
    (hback : ∀ s x s', f s = (.ok x, s') → ∃ y b, s = b ++ s' ∧ F y b ∧ P y) :
    ∀ (n : Nat) (s r : Bytes), (∃ xs, Transaction.readMany f n s = (.ok xs, r) ∧ xs.length = n) ↔
      ∃ ys b, s = b ++ r ∧ Listed F ys b ∧ (∀ y ∈ ys, P y) ∧ ys.length = n := by
  intro n
  induction n with
  | zero =>
    intro s r
    constructor
    · rintro ⟨xs, h, -⟩
      injection h with _ h
      exact ⟨[], [], h, .nil, by simp, rfl⟩
    · rintro ⟨ys, b, rfl, hL, -, hn⟩
      obtain rfl := List.length_eq_zero_iff.1 hn
      cases hL
      exact ⟨[], rfl, rfl⟩
  | succ n ih =>
    intro s r
    simp only [Transaction.readMany]
    constructor
    · rintro ⟨xs, h, -⟩
      obtain ⟨x, s1, h1, h⟩ := Rd.bind_ok_iff.1 h
      obtain ⟨xs', s2, h2, h⟩ := Rd.bind_ok_iff.1 h
      injection h with _ h
      subst h
      obtain ⟨y, b, rfl, hF, hP⟩ := hback _ _ _ h1
      obtain ⟨ys, b', rfl, hL, hA, hn⟩ := (ih _ _).1 ⟨xs', h2, readMany_length h2⟩
      exact ⟨y :: ys, b ++ b', by simp, .cons hF hL, by simpa using ⟨hP, hA⟩, by simpa using hn⟩
    · rintro ⟨ys, b, rfl, hL, hA, hn⟩
      cases hL with
      | nil => simp at hn
      | @cons y b ys bs hy hys =>
        obtain ⟨x, hx⟩ := hok y b (bs ++ r) hy (hA y (by simp))
        obtain ⟨xs, hxs, hl⟩ := (ih (bs ++ r) r).2 ⟨ys, bs, rfl, hys, fun z hz => hA z (by simp [hz]), by simpa using hn⟩
        exact ⟨x :: xs, by rw [List.append_assoc, Rd.bind_ok hx, Rd.bind_ok hxs]; rfl, by simpa using hl⟩

theorem input_ok (w : WireIn) (b rest : Bytes) (hb : w.Form b) (h : w.Fits ∧ Legible w.script) :
    ∃ i, Input.fromBuffer .generic (b ++ rest) = (.ok i, rest) := by
  obtain ⟨hc, hn⟩ := (legible_iff _).2 h.2
  rcases input_form .generic w h.1 hc hb rest with ⟨-, i, hi, -⟩ | ⟨h', -⟩
  · exact ⟨i, hi⟩
  · exact absurd h' hn

theorem input_back (s : Bytes) (i : Input) (s' : Bytes) (h : Input.fromBuffer .generic s = (.ok i, s')) :
    ∃ (w : WireIn) (b : Bytes), s = b ++ s' ∧ w.Form b ∧ w.Fits ∧ Legible w.script := by
  obtain ⟨w, b, hs, -, hw, hf⟩ := input_form_ok h
  exact ⟨w, b, hs, hf, hw.1, (legible_iff _).1 hw.2⟩

theorem output_ok (w : WireOut) (b rest : Bytes) (hb : w.Form b) (h : w.Fits ∧ Legible w.script) :
    ∃ o, Output.fromBuffer (b ++ rest) = (.ok o, rest) := by
  obtain ⟨hc, hn⟩ := (legible_iff _).2 h.2
  rcases output_form w h.1 hc hb rest with ⟨-, i, hi, -⟩ | ⟨h', -⟩
  · exact ⟨i, hi⟩
  · exact absurd h' hn

theorem output_back (s : Bytes) (o : Output) (s' : Bytes) (h : Output.fromBuffer s = (.ok o, s')) :
    ∃ (w : WireOut) (b : Bytes), s = b ++ s' ∧ w.Form b ∧ w.Fits ∧ Legible w.script := by
  obtain ⟨w, b, hs, -, hw, hf⟩ := output_form_ok h
  exact ⟨w, b, hs, hf, hw.1, (legible_iff _).1 hw.2⟩

theorem range_error_iff {n : Nat} {e : Err} : Transaction.pyRange n = .error e ↔ 2 ^ 63 ≤ n ∧ e = .overflowError := by
  unfold Transaction.pyRange
  split
  · next h =>
    constructor
    · intro h'; cases h'
    · rintro ⟨h', -⟩; exact absurd h (Nat.not_lt.2 h')
  · next h =>
    constructor
    · intro h'
      injection h' with h'
      exact ⟨Nat.not_lt.1 h, h'.symm⟩
    · rintro ⟨-, rfl⟩; rfl

theorem range_ok {n : Nat} (h : n < 2 ^ 63) : Transaction.pyRange n = .ok n := if_pos h

theorem lift_range_ok {n m : Nat} {s s' : Bytes} (h : Rd.lift (Transaction.pyRange n) s = (.ok m, s')) :
    n < 2 ^ 63 ∧ m = n ∧ s' = s := by
  unfold Transaction.pyRange at h
  split at h
  · next h' =>
    injection h with h1 h2
    injection h1 with h1
    exact ⟨h', h1.symm, h2.symm⟩
  · injection h with h1 _
    cases h1

/-- The last check: the constructor. -/
theorem new_error_iff {is : List Input} {os : List Output} {l v : Bytes} (hl : l.length = 4) {e : Err} :
    Transaction.new (is.map some) (os.map some) (decodeInt l (bigEndian := false)) (decodeInt v (bigEndian := false)) =
      .error e ↔ (is = [] ∧ e = .txNoInputs) ∨ (is ≠ [] ∧ os = [] ∧ e = .txNoOutputs) := by
  have hb : ((decodeInt l (bigEndian := false) : Nat) : Int) ≤ 0xFFFFFFFF := by
    rw [decodeInt_little]
    have := leValue_lt l
    rw [hl] at this
    omega
  unfold Transaction.new
  rw [mapM_some, mapM_some, List.length_map, List.length_map]
  simp only
  cases is with
  | nil =>
    rw [if_pos List.length_nil]
    constructor
    · intro h
      injection h with h
      exact .inl ⟨rfl, h.symm⟩
    · rintro (⟨-, rfl⟩ | ⟨h, -⟩)
      · rfl
      · exact absurd rfl h
  | cons i is =>
    rw [if_neg (by simp)]
    cases os with
    | nil =>
      rw [if_pos List.length_nil]
      constructor
      · intro h
        injection h with h
        exact .inr ⟨by simp, rfl, h.symm⟩
      · rintro (⟨h, -⟩ | ⟨-, -, rfl⟩)
        · cases h
        · rfl
    | cons o os =>
      rw [if_neg (by simp), if_neg (not_not.2 ⟨by omega, hb⟩)]
      constructor
      · intro h; cases h
      · rintro (⟨h, -⟩ | ⟨-, h, -⟩) <;> cases h

/-- C117. Bytes are refused as a transaction exactly for these reasons, the first that applies. -/
theorem C117_transaction (b : Bytes) (e : Err) : Transaction.fromBytes b = .error e ↔ NoTx b e := by
  have ins := readMany_error_iff (f := Input.fromBuffer .generic) input_ok input_back (input_error_iff .generic)
  have outs := readMany_error_iff (f := Output.fromBuffer) output_ok output_back output_error_iff
  have insOk := readMany_ok_iff (f := Input.fromBuffer .generic) input_ok input_back
  have outsOk := readMany_ok_iff (f := Output.fromBuffer) output_ok output_back
  unfold Transaction.fromBytes Transaction.fromBuffer
  constructor
  · intro h
    rcases bind_error_iff.1 h with g | ⟨v, s1, h1, g1⟩
    · exact .version (read_error_iff.1 g)
    obtain ⟨rfl, hv⟩ := (read_ok_iff _ _ _ _).1 h1
    rcases bind_error_iff.1 g1 with g | ⟨n, s2, h2, g2⟩
    · exact .inputCount hv (readVarint_error_iff.1 g)
    obtain ⟨c, hc, rfl⟩ := readVarint_ok_iff.1 h2
    rcases bind_error_iff.1 g2 with g | ⟨n', s3, h3, g3⟩
    · obtain ⟨hn, rfl⟩ := range_error_iff.1 (lift_error_iff.1 g)
      exact .inputRange hv hc hn
    obtain ⟨hn, rfl, rfl⟩ := lift_range_ok h3
    rcases bind_error_iff.1 g3 with g | ⟨is, s4, h4, g4⟩
    · obtain ⟨ys, p, r, rfl, hL, hA, hlt, hN⟩ := (ins _ _ _).1 g
      exact .input hv hc hn ⟨hL, hA⟩ hlt hN
    obtain ⟨wi, p, rfl, hL, hA, rfl⟩ := (insOk _ _ _).1 ⟨is, h4, readMany_length h4⟩
    have hlen := readMany_length h4
    rcases bind_error_iff.1 g4 with g | ⟨m, s5, h5, g5⟩
    · exact .outputCount hv hc hn ⟨hL, hA⟩ (readVarint_error_iff.1 g)
    obtain ⟨d, hd, rfl⟩ := readVarint_ok_iff.1 h5
    rcases bind_error_iff.1 g5 with g | ⟨m', s6, h6, g6⟩
    · obtain ⟨hm, rfl⟩ := range_error_iff.1 (lift_error_iff.1 g)
      exact .outputRange hv hc hn ⟨hL, hA⟩ hd hm
    obtain ⟨hm, rfl, rfl⟩ := lift_range_ok h6
    rcases bind_error_iff.1 g6 with g | ⟨os, s7, h7, g7⟩
    · obtain ⟨ys, p', r, rfl, hL', hA', hlt, hN⟩ := (outs _ _ _).1 g
      exact .output hv hc hn ⟨hL, hA⟩ hd hm ⟨hL', hA'⟩ hlt hN
    obtain ⟨wo, p', rfl, hL', hA', rfl⟩ := (outsOk _ _ _).1 ⟨os, h7, readMany_length h7⟩
    have hlen' := readMany_length h7
    rcases bind_error_iff.1 g7 with g | ⟨l, s8, h8, g8⟩
    · exact .lockTime hv hc hn ⟨hL, hA⟩ hd hm ⟨hL', hA'⟩ (read_error_iff.1 g)
    obtain ⟨rfl, hl⟩ := (read_ok_iff _ _ _ _).1 h8
    rcases (new_error_iff hl).1 (lift_error_iff.1 g8) with ⟨rfl, rfl⟩ | ⟨hne, rfl, rfl⟩
    · obtain rfl := List.length_eq_zero_iff.1 hlen.symm
      cases hL
      exact NoTx.noInputs (s := l ++ s8) hv hc hd hm ⟨hL', hA'⟩ (by simp [hl])
    · obtain rfl := List.length_eq_zero_iff.1 hlen'.symm
      cases hL'
      refine NoTx.noOutputs (s := l ++ s8) hv hc hn ⟨hL, hA⟩ (fun h0 => hne ?_) hd (by simp [hl])
      rw [h0] at hlen
      exact List.length_eq_zero_iff.1 hlen
  · intro h
    have stepVersion : ∀ {v s : Bytes} {β : Type} {k : Bytes → Rd β}, v.length = 4 → (k v s).1 = .error e →
        (Rd.bind (Buffer.read 4) k (v ++ s)).1 = .error e :=
      fun hv h => bind_error_iff.2 (.inr ⟨_, _, (read_ok_iff _ _ _ _).2 ⟨rfl, hv⟩, h⟩)
    have stepCount : ∀ {n : Nat} {c s : Bytes} {β : Type} {k : Nat → Rd β}, CountForm n c → (k n s).1 = .error e →
        (Rd.bind Buffer.readVarint k (c ++ s)).1 = .error e :=
      fun hc h => bind_error_iff.2 (.inr ⟨_, _, readVarint_form hc _, h⟩)
    have stepRange : ∀ {n : Nat} {s : Bytes} {β : Type} {k : Nat → Rd β}, n < 2 ^ 63 → (k n s).1 = .error e →
        (Rd.bind (Rd.lift (Transaction.pyRange n)) k s).1 = .error e :=
      fun hn h => bind_error_iff.2 (.inr ⟨_, _, by rw [range_ok hn]; rfl, h⟩)
    have stepIns : ∀ {is : List WireIn} {p s : Bytes} {β : Type} {k : List Input → Rd β}, Inputs is p →
        (∀ xs : List Input, xs.length = is.length → (k xs s).1 = .error e) →
        (Rd.bind (Transaction.readMany (Input.fromBuffer .generic) is.length) k (p ++ s)).1 = .error e := by
      intro is p s β k hI h
      obtain ⟨xs, hx, hlen⟩ := (insOk is.length (p ++ s) s).2 ⟨is, p, rfl, hI.1, hI.2, rfl⟩
      exact bind_error_iff.2 (.inr ⟨_, _, hx, h xs hlen⟩)
    have stepOuts : ∀ {os : List WireOut} {p s : Bytes} {β : Type} {k : List Output → Rd β}, Outputs os p →
        (∀ xs : List Output, xs.length = os.length → (k xs s).1 = .error e) →
        (Rd.bind (Transaction.readMany Output.fromBuffer os.length) k (p ++ s)).1 = .error e := by
      intro os p s β k hI h
      obtain ⟨xs, hx, hlen⟩ := (outsOk os.length (p ++ s) s).2 ⟨os, p, rfl, hI.1, hI.2, rfl⟩
      exact bind_error_iff.2 (.inr ⟨_, _, hx, h xs hlen⟩)
    have four : ∀ {s : Bytes}, 4 ≤ s.length → ∃ l r, s = l ++ r ∧ l.length = 4 :=
      fun {s} hs => ⟨s.take 4, s.drop 4, (List.take_append_drop 4 s).symm, by simp [hs]⟩
    cases h with
    | version h => exact bind_error_iff.2 (.inl (read_error_iff.2 h))
    | inputCount h1 h2 => exact stepVersion h1 (bind_error_iff.2 (.inl (readVarint_error_iff.2 h2)))
    | inputRange h1 h2 h3 =>
      exact stepVersion h1 (stepCount h2 (bind_error_iff.2 (.inl (lift_error_iff.2 (range_error_iff.2 ⟨h3, rfl⟩)))))
    | input h1 h2 h3 h4 h5 h6 =>
      exact stepVersion h1 (stepCount h2 (stepRange h3 (bind_error_iff.2 (.inl ((ins _ _ _).2
        ⟨_, _, _, rfl, h4.1, h4.2, h5, h6⟩)))))
    | outputCount h1 h2 h3 h4 h5 =>
      exact stepVersion h1 (stepCount h2 (stepRange h3 (stepIns h4 fun xs _ =>
        bind_error_iff.2 (.inl (readVarint_error_iff.2 h5)))))
    | outputRange h1 h2 h3 h4 h5 h6 =>
      exact stepVersion h1 (stepCount h2 (stepRange h3 (stepIns h4 fun xs _ => stepCount h5
        (bind_error_iff.2 (.inl (lift_error_iff.2 (range_error_iff.2 ⟨h6, rfl⟩)))))))
    | output h1 h2 h3 h4 h5 h6 h7 h8 h9 =>
      exact stepVersion h1 (stepCount h2 (stepRange h3 (stepIns h4 fun xs _ => stepCount h5 (stepRange h6
        (bind_error_iff.2 (.inl ((outs _ _ _).2 ⟨_, _, _, rfl, h7.1, h7.2, h8, h9⟩)))))))
    | lockTime h1 h2 h3 h4 h5 h6 h7 h8 =>
      exact stepVersion h1 (stepCount h2 (stepRange h3 (stepIns h4 fun xs _ => stepCount h5 (stepRange h6
        (stepOuts h7 fun ys _ => bind_error_iff.2 (.inl (read_error_iff.2 h8)))))))
    | noInputs h1 h2 h3 h4 h5 h6 =>
      obtain ⟨l, r, rfl, hl⟩ := four h6
      exact stepVersion h1 (stepCount h2 (stepRange (by norm_num) (stepIns (is := []) (p := []) ⟨.nil, by simp⟩
        fun xs hx => stepCount h3 (stepRange h4 (stepOuts h5 fun ys _ => stepVersion hl
          (lift_error_iff.2 ((new_error_iff hl).2 (.inl ⟨List.length_eq_zero_iff.1 hx, rfl⟩))))))))
    | noOutputs h1 h2 h3 h4 h5 h6 h7 =>
      obtain ⟨l, r, rfl, hl⟩ := four h7
      exact stepVersion h1 (stepCount h2 (stepRange h3 (stepIns h4 fun xs hx => stepCount h6 (stepRange (by norm_num)
        (stepOuts (os := []) (p := []) ⟨.nil, by simp⟩ fun ys hy => stepVersion hl
          (lift_error_iff.2 ((new_error_iff hl).2 (.inr ⟨fun h0 => h5 (List.length_eq_zero_iff.1 (by rw [← hx, h0]; rfl)),
            List.length_eq_zero_iff.1 hy, rfl⟩))))))))

/-- C117. At most one reason applies, and one applies exactly when the bytes do not begin with a form of a transaction with
legible scripts. -/
theorem C117_decided (b : Bytes) : (∀ e e', NoTx b e → NoTx b e' → e = e') ∧
    ((∃ e, NoTx b e) ↔ ¬ ∃ (w : WireTx) (p rest : Bytes), Readable w ∧ w.Form p ∧ b = p ++ rest) := by
  constructor
  · intro e e' h h'
    rw [← C117_transaction] at h h'
    rw [h] at h'
    injection h'
  · constructor
    · rintro ⟨e, h⟩ ⟨w, p, rest, hw, hp, rfl⟩
      obtain ⟨t, -, ht, -⟩ := C36_reads w hw p rest hp
      rw [(C117_transaction _ _).2 h] at ht
      cases ht
    · intro h
      cases ht : Transaction.fromBytes b with
      | error e => exact ⟨e, (C117_transaction _ _).1 ht⟩
      | ok t =>
        obtain ⟨w, p, rest, hb, hp, hw⟩ := (C36_domain b).1 ⟨t, ht⟩
        exact absurd ⟨w, p, rest, hw, hp, hb⟩ h

/-- C117. Texts: those that are not hexadecimal, and those of refused bytes. -/
theorem C117_hex (t : Text) (e : Err) : Transaction.fromHex t = .error e ↔
    ((t.length % 2 = 1 ∨ ∃ c ∈ t, c ∉ hexChars) ∧ e = if isAscii t then .invalidHex else .unicodeEncodeError) ∨
    ∃ b, (∀ c ∈ t, c ∈ hexChars) ∧ encodeHex b = t.map Char.toLower ∧ NoTx b e := by
  by_cases h : t.length % 2 = 1 ∨ ∃ c ∈ t, c ∉ hexChars
  · have hr := C05_reject t h
    unfold Transaction.fromHex
    rw [hr]
    constructor
    · intro he
      injection he with he
      exact .inl ⟨h, he.symm⟩
    · rintro (⟨-, rfl⟩ | ⟨b, h1, h2, -⟩)
      · rfl
      · rw [(C05_decode_iff t b).2 ⟨h1, h2⟩] at hr
        cases hr
  · rw [not_or] at h
    have hc : ∀ c ∈ t, c ∈ hexChars := fun c hc => by_contra fun hn => h.2 ⟨c, hc, hn⟩
    obtain ⟨b, hb, -⟩ := C05_accept t (by omega) hc
    unfold Transaction.fromHex
    rw [hb]
    show Transaction.fromBytes b = .error e ↔ _
    rw [C117_transaction]
    constructor
    · intro hN
      exact .inr ⟨b, hc, ((C05_decode_iff t b).1 hb).2, hN⟩
    · rintro (⟨h', -⟩ | ⟨b', h1, h2, h3⟩)
      · rcases h' with h' | h'
        · exact absurd h' h.1
        · exact absurd h' h.2
      · rw [(C05_decode_iff t b').2 ⟨h1, h2⟩] at hb
        injection hb with hb
        rwa [← hb]

/-- C117. The exceptions there are: missing bytes, the classifier's AttributeError, OverflowError for a count of 2^63 or more,
no inputs, no outputs. -/
theorem C117_exceptions {b : Bytes} {e : Err} (h : Transaction.fromBytes b = .error e) :
    (∃ r n, e = .insufficientData r n ∧ r < n) ∨ e = .attributeError ∨ e = .overflowError ∨ e = .txNoInputs ∨
      e = .txNoOutputs := by
  have hs : ∀ {n s e}, Short n s e → ∃ r n, e = .insufficientData r n ∧ r < n := by rintro n s e ⟨h⟩; exact ⟨_, _, rfl, h⟩
  have hc : ∀ {s e}, NoCount s e → ∃ r n, e = .insufficientData r n ∧ r < n := by
    intro s e h
    cases h with
    | empty => exact ⟨_, _, rfl, by norm_num⟩
    | two h => exact hs h
    | four h => exact hs h
    | eight h => exact hs h
  have hsc : ∀ {s e}, NoScript s e → (∃ r n, e = .insufficientData r n ∧ r < n) ∨ e = .attributeError := by
    intro s e h
    cases h with
    | trips => exact .inr rfl
    | direct _ _ h => exact .inl (hs h)
    | count _ _ h => exact .inl (hs h)
    | counted _ _ _ h => exact .inl (hs h)
  have hi : ∀ {s e}, NoInput s e → (∃ r n, e = .insufficientData r n ∧ r < n) ∨ e = .attributeError := by
    intro s e h
    cases h with
    | id h => exact .inl (hs h)
    | index _ h => exact .inl (hs h)
    | count _ h => exact .inl (hc h)
    | length _ _ h => exact .inl (hs h)
    | script _ _ h => exact hsc h
    | sequence _ _ _ h => exact .inl (hs h)
  have ho : ∀ {s e}, NoOutput s e → (∃ r n, e = .insufficientData r n ∧ r < n) ∨ e = .attributeError := by
    intro s e h
    cases h with
    | amount h => exact .inl (hs h)
    | count _ h => exact .inl (hc h)
    | length _ _ h => exact .inl (hs h)
    | script _ _ h => exact hsc h
  cases (C117_transaction b e).1 h with
  | version h => exact .inl (hs h)
  | inputCount _ h => exact .inl (hc h)
  | inputRange => exact .inr (.inr (.inl rfl))
  | input _ _ _ _ _ h => exact (hi h).imp_right .inl
  | outputCount _ _ _ _ h => exact .inl (hc h)
  | outputRange => exact .inr (.inr (.inl rfl))
  | output _ _ _ _ _ _ _ _ h => exact (ho h).imp_right .inl
  | lockTime _ _ _ _ _ _ _ h => exact .inl (hs h)
  | noInputs => exact .inr (.inr (.inr (.inl rfl)))
  | noOutputs => exact .inr (.inr (.inr (.inr rfl)))

/-- The empty string; a count of 2^63; no inputs at all; an output whose script trips the classifier. -/
example : Transaction.fromBytes [] = .error (.insufficientData 0 4) :=
  (C117_transaction _ _).2 (.version (.mk (by decide)))

example (s : Bytes) : Transaction.fromBytes ([1, 0, 0, 0] ++ (255 :: le 8 (2 ^ 63) ++ s)) = .error .overflowError :=
  (C117_transaction _ _).2 (.inputRange rfl (.eight _ (by norm_num)) (le_refl _))

example : Transaction.fromBytes [1, 0, 0, 0, 0, 0, 9, 9, 9, 9, 9] = .error .txNoInputs :=
  (C117_transaction _ _).2 (.noInputs (v := [1, 0, 0, 0]) (c := [0]) (d := [0]) (os := []) (b' := []) rfl (.one 0 (by norm_num))
    (.one 0 (by norm_num)) (by norm_num) ⟨.nil, by simp⟩ (by decide))

example (s : Bytes) : Transaction.fromBytes ([1, 0, 0, 0] ++ ([1] ++ ([] ++ (List.replicate 36 7 ++ ([2] ++ ([5, 1] ++ s)))))) =
    .error (.insufficientData 1 5) :=
  (C117_transaction _ _).2 (.input (is := []) rfl (.one 1 (by norm_num)) (by norm_num) ⟨.nil, by simp⟩ (by decide)
    (.script rfl (.one 2 (by norm_num)) (.direct (p := []) .nil (n := 5) rfl (.mk (s := [1]) (by decide)))))

end Bitforge
