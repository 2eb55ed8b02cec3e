import Verif.Props.Found

/-! # C146: data published in an output can be read from the transaction

A program that looks for data in transactions asks which outputs are of class DataOutput, and takes `get_data` of their scripts. -/

namespace Bitforge.Published
open Spec Txs Scripts Found

/-- `isinstance(o, DataOutput) and o.script.get_data() == d`. -/
def FindsData (d : Bytes) (o : Output) : Prop :=
  o.cls = .data ∧ ∃ x, OpReturnOut.getData o.script = .ok (some x) ∧ x.val = d

/-- OP_RETURN and one push of these bytes. -/
def Publishes (d pub : Bytes) : Prop := ∃ op, Encodes [(106, none), (op, some d)] pub

/-- C146. The outputs whose data are found are those that are OP_RETURN and one push of them, whatever opcode pushes them and
however many bytes they are. -/
theorem C146_output (w : WireOut) (o : Output) (h : ReadOut w o) (data : Bytes) : FindsData data o ↔ Publishes data w.script := by
  cases h with
  | mk hb hp =>
    rename_i s c
    obtain ⟨ws, he, hi, ht⟩ := read_script hb
    have hwf := encodes_wf he
    constructor
    · rintro ⟨h1, d, h2, rfl⟩
      replace h1 : c = .data := h1
      subst h1
      replace h2 : OpReturnOut.getData s = .ok (some d) := h2
      generalize hcls : s.cls = sc at hp
      cases hp with
      | data =>
        have hm : shape ws = [some 106, none] := (ht .nullData).1 (by rw [hcls]; rfl)
        have hl : ws.length = 2 := by simpa [shape] using congrArg List.length hm
        match ws, hl with
        | [i1, i2], _ =>
          simp only [shape, List.map_cons, List.map_nil, List.cons.injEq, and_true] at hm
          obtain ⟨m1, m2⟩ := hm
          obtain rfl := plain_of_shape (hwf i1 (by simp)) m1
          obtain ⟨e, h3⟩ := push_of_shape (hwf i2 (by simp)) m2
          obtain ⟨op, x⟩ := i2
          cases h3
          unfold OpReturnOut.getData dataAt at h2
          rw [hi] at h2
          cases h2
          exact ⟨op, he⟩
    · rintro ⟨op, he'⟩
      obtain rfl := encodes_injective he he'
      have hm : shape [(106, none), (op, some data)] = [some 106, none] := by
        have := push_shape (hwf (op, some data) (by simp)) rfl
        simp only [shape, List.map_cons, List.map_nil, this]
        decide
      have hcls : s.cls.template = some .nullData := (ht .nullData).2 hm
      have hcls : s.cls = .opReturnOut := by
        revert hcls
        cases s.cls <;> decide
      rw [hcls] at hp
      cases hp with
      | data =>
        refine ⟨rfl, ⟨.bytearray, data⟩, ?_, rfl⟩
        show OpReturnOut.getData s = _
        unfold OpReturnOut.getData dataAt
        rw [hi]
        rfl
      | other _ _ h => exact absurd rfl h

/-- C146. An output publishes one thing only. -/
theorem C146_one {d d' pub : Bytes} (h : Publishes d pub) (h' : Publishes d' pub) : d = d' := by
  obtain ⟨op, h⟩ := h
  obtain ⟨op', h'⟩ := h'
  have e := encodes_injective h h'
  simp only [List.cons.injEq, Prod.mk.injEq, Option.some.injEq, and_true, true_and] at e
  exact e.2

/-- C146. All outputs that publish something can be read. -/
theorem C146_read (amount : Nat) (d pub : Bytes) (h : Publishes d pub) : ∃ o, ReadOut ⟨amount, pub⟩ o ∧ FindsData d o := by
  obtain ⟨op, he⟩ := id h
  rcases script_fromBytes _ _ he with ⟨_, s, h1, -, -⟩ | ⟨hx, _⟩
  · obtain ⟨c, hc⟩ := paid_total s.cls
    have hr : ReadOut ⟨amount, pub⟩ ⟨c, amount, s⟩ := .mk ((C129_bytes _ _).1 h1) hc
    exact ⟨_, hr, (C146_output _ _ hr d).2 h⟩
  · exact absurd hx.1 (by simp [shape])

/-- C146. What `DataOutput` writes, of 1 to 75 bytes, is found by who reads it. -/
theorem C146_carried (d : Bytes) (h1 : 1 ≤ d.length) (h2 : d.length ≤ 75) : ∃ o pub, DataOutput.create ⟨.str, d⟩ = .ok o ∧
    o.script.toBytes = .ok pub ∧ Publishes d pub ∧ ∃ o', ReadOut ⟨0, pub⟩ o' ∧ FindsData d o' ∧ ∀ d', FindsData d' o' → d' = d := by
  obtain ⟨o, ho, -, -, -, -, -, hb, -⟩ := C43_data_partial d h1 (by omega)
  have hp : Publishes d (106 :: byte d.length :: d) := by
    refine ⟨(pushOf d).1, ?_⟩
    have he : Encodes [(106, none), pushOf d] ([106] ++ (shortPush d ++ [])) :=
      .cons (by decide) rfl (.cons (Ref.pushOf_wf d (by omega)) (pushOf_isWire d h1 h2) .nil)
    rw [List.append_nil] at he
    rw [show pushOf d = ((pushOf d).1, some d) from Prod.ext rfl (Ref.pushOf_op d h1).1] at he
    exact he
  obtain ⟨o', hr, hf⟩ := C146_read 0 d _ hp
  exact ⟨o, _, ho, hb h2, hp, o', hr, hf, fun d' h' => C146_one ((C146_output _ _ hr d').1 h') hp⟩

/-- C146. Nobody can spend an output that publishes something, under any flags. -/
theorem C146_unspendable (H : Hashes) (flags : Nat) (w : WireTx) (n : Nat) (d pub : Bytes) (h : Publishes d pub) :
    ¬ Ref.Spends H flags w n pub := by
  obtain ⟨op, he⟩ := h
  rintro ⟨x, hx, s, p, st, st', es, ep, -, -, e2, -⟩
  cases encodes_injective ep he
  rw [Ref.return_none] at e2
  cases e2

/-- C146, part that holds: of the outputs that the reference client takes for data, those that push them by an opcode for pushes
are found, and those that are found are taken for data up to 80 bytes.  Missing: the others, see the refutation. -/
theorem C146_client_partial (d pub : Bytes) (h : Publishes d pub) : Ref.IsForm pub .nullData ↔ d.length ≤ 80 := by
  obtain ⟨op, he⟩ := h
  constructor
  · intro hf
    cases hf with
    | nullData h1 h2 =>
      cases encodes_injective he h1
      exact h2
    | nullEmpty =>
      have h1 : Encodes [(106, none)] ([106] ++ []) := .cons (by decide) rfl .nil
      cases encodes_injective he h1
  · exact fun hl => .nullData he hl

/-- C146 is false of the code: OP_RETURN alone, and OP_RETURN with one of OP_0 to OP_16, which push data of at most one byte, are
data for the reference client, but are no DataOutput. -/
theorem C146_client_refuted (amount : Nat) (op : Byte) (hop : op = 0 ∨ 81 ≤ op.val ∧ op.val ≤ 96) :
    (Ref.IsForm [106] .nullData ∧ ∀ o, ReadOut ⟨amount, [106]⟩ o → o.cls ≠ .data) ∧
    (Ref.IsForm [106, op] .nullData ∧ ∀ o, ReadOut ⟨amount, [106, op]⟩ o → o.cls ≠ .data) := by
  have hk : pushKind op = .plain := by
    have : ∀ op : Byte, op = 0 ∨ 81 ≤ op.val ∧ op.val ≤ 96 → pushKind op = .plain := by decide +kernel
    exact this op hop
  have h1 : Encodes [(106, none)] [106] := .cons (b := [106]) (by decide) rfl .nil
  have h2 : Encodes [(106, none), (op, none)] [106, op] := .cons (b := [106]) (by decide) rfl (.cons (b := [op]) hk rfl .nil)
  have none_found : ∀ {ws pub o}, Encodes ws pub → shape ws ≠ [some 106, none] → ReadOut ⟨amount, pub⟩ o → o.cls ≠ .data := by
    intro ws pub o he hn hr hc
    cases hr with
    | mk hb hp =>
      rename_i s c
      obtain ⟨ws', he', -, ht⟩ := read_script hb
      obtain rfl := encodes_injective he' he
      replace hc : c = .data := hc
      subst hc
      generalize hcls : s.cls = sc at hp
      cases hp with
      | data => exact hn ((ht .nullData).1 (by rw [hcls]; rfl))
  refine ⟨⟨.nullEmpty, fun o => none_found h1 (by decide)⟩, ⟨.nullData h2 (by simp), fun o => none_found h2 ?_⟩⟩
  simp [shape, hk]

/-- C146 is false of the code: data of more than 80 bytes are found, though `DataOutput` refuses to make them. -/
theorem C146_limit_refuted (amount : Nat) (d : Bytes) (h1 : 80 < d.length) (h2 : d.length ≤ 255) :
    (∃ pub o, ReadOut ⟨amount, pub⟩ o ∧ FindsData d o) ∧ DataOutput.create ⟨.str, d⟩ = .error .outTooMuchData := by
  refine ⟨?_, C43_data_limit _ h1⟩
  have hp : Publishes d (106 :: 76 :: Fin.ofNat 256 d.length :: d) := by
    refine ⟨76, ?_⟩
    have he : Encodes [(106, none), (76, some d)] ([106] ++ ((76 :: [Fin.ofNat 256 d.length] ++ d) ++ [])) := by
      refine .cons (by decide) rfl (.cons ?_ ?_ .nil)
      · unfold Wf
        simp only [show pushKind 76 = .counted 1 by decide]
        omega
      · unfold IsWire
        simp only [show pushKind 76 = .counted 1 by decide]
        refine ⟨[Fin.ofNat 256 d.length], rfl, ?_, rfl⟩
        have : d.length % 256 = d.length := Nat.mod_eq_of_lt (by omega)
        simp [leValue, this]
    rw [List.append_nil] at he
    exact he
  obtain ⟨o, hr, hf⟩ := C146_read amount d _ hp
  exact ⟨_, o, hr, hf⟩

example : Publishes [1, 2, 3] [106, 3, 1, 2, 3] ∧ ∃ o, ReadOut ⟨0, [106, 3, 1, 2, 3]⟩ o ∧ FindsData [1, 2, 3] o := by
  have h : Publishes [1, 2, 3] [106, 3, 1, 2, 3] :=
    ⟨3, .cons (b := [106]) (by decide) rfl (.cons (b := [3, 1, 2, 3]) (by decide) rfl .nil)⟩
  exact ⟨h, C146_read 0 _ _ h⟩

example : 80 < (List.replicate 81 (7 : Byte)).length ∧ (List.replicate 81 (7 : Byte)).length ≤ 255 := by decide

end Bitforge.Published
