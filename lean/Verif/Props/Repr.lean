import Verif.Repr
import Verif.Proofs.ScriptText
import Verif.Props.Names
import Verif.Props.Keys
import Verif.Props.PubKey

/-! # C82 printing objects -/

namespace Bitforge
open Spec

/-- Two texts cut at the first `c` are the same on both sides. -/
theorem cut_unique {c : Char} {u v r s : Text} (hu : c ∉ u) (hv : c ∉ v) (h : u ++ c :: r = v ++ c :: s) :
    u = v ∧ r = s := by
  induction u generalizing v with
  | nil =>
    cases v with
    | nil => simpa using h
    | cons b v => simp at h; simp [h.1] at hv
  | cons a u ih =>
    cases v with
    | nil => simp at h; simp [h.1] at hu
    | cons b v =>
      simp only [List.cons_append, List.cons.injEq] at h
      simp only [List.mem_cons, not_or] at hu hv
      obtain ⟨h1, h2⟩ := ih hu.2 hv.2 h.2
      exact ⟨by rw [h.1, h1], h2⟩

/-! ## Opcodes -/

theorem name_chars : ∀ b : Byte, (match (Opcode.mk b).name with
    | .ok t => decide ('>' ∉ t ∧ '\'' ∉ t ∧ ' ' ∉ t)
    | .error _ => true) = true := by decide +kernel

theorem name_no {b : Byte} {t : Text} (h : (Opcode.mk b).name = .ok t) : '>' ∉ t ∧ '\'' ∉ t ∧ ' ' ∉ t := by
  have := name_chars b
  rw [h] at this
  simpa using this

theorem decText_inj {m n : Nat} (h : Opcode.decText m = Opcode.decText n) : m = n := by
  rw [← intOfText_decText m, h, intOfText_decText]

/-- Different opcodes have different names. -/
theorem name_inj {a b : Opcode} {t : Text} (ha : a.name = .ok t) (hb : b.name = .ok t) : a = b := by
  obtain ⟨a⟩ := a
  obtain ⟨b⟩ := b
  have key : ∀ {x : Byte}, (Opcode.mk x).name = .ok t → (Opcode.mk x).isConstPush = false →
      Opcode.fromName t = .ok ⟨x⟩ := by
    intro x hx hc
    have := name_table x
    rw [hx] at this
    simp only [decide_eq_true_eq, hc] at this
    simpa using this.2.1
  have const : ∀ {x : Byte}, (Opcode.mk x).name = .ok t → (Opcode.mk x).isConstPush = true →
      t = "_PUSH_".toList ++ Opcode.decText x.val ++ "_BYTES".toList := by
    intro x hx hc
    unfold Opcode.name at hx
    rw [if_pos hc] at hx
    exact (Except.ok.inj hx).symm
  have no : ∀ {x y : Byte}, (Opcode.mk x).name = .ok t → (Opcode.mk x).isConstPush = true →
      (Opcode.mk y).name = .ok t → (Opcode.mk y).isConstPush = false → False := by
    intro x y hx hc hy hd
    have := key hy hd
    rw [const hx hc] at this
    exact absurd this (by simp [Opcode.fromName, List.isPrefixOf])
  cases hca : (Opcode.mk a).isConstPush <;> cases hcb : (Opcode.mk b).isConstPush
  · have := (key ha hca).symm.trans (key hb hcb)
    exact Except.ok.inj this
  · exact (no hb hcb ha hca).elim
  · exact (no ha hca hb hcb).elim
  · have := (const ha hca).symm.trans (const hb hcb)
    simp only [List.append_assoc, List.append_cancel_left_eq, List.append_cancel_right_eq] at this
    rw [Fin.ext (decText_inj this)]

/-- C82, part that holds: an opcode that has a name prints as that, with its number; a direct push prints its size.
Missing: opcodes without a name (see the refutation). -/
theorem C82_opcode_partial (o : Opcode) (h : Named o.number) : ∃ t d, o.repr = .ok t ∧ Decimal d o.number.val ∧
    (pushKind o.number = .direct o.number.val ∧ t = "<Opcode PUSH ".toList ++ d ++ " BYTES>".toList ∨
      ∃ name, NameOf name o.number ∧ t = "<Opcode ".toList ++ d ++ ": ".toList ++ name ++ ">".toList) := by
  obtain ⟨b⟩ := o
  obtain ⟨name, hn, _, _⟩ := name_named b h
  unfold Opcode.repr
  cases hc : (Opcode.mk b).isConstPush with
  | true =>
    exact ⟨_, _, rfl, decimal_decText _, .inl ⟨(pushKind_const b).1 hc, rfl⟩⟩
  | false =>
    rw [if_neg (by simp), hn]
    refine ⟨_, _, rfl, decimal_decText _, .inr ⟨name, ?_, rfl⟩⟩
    rcases C68_name b name hn with ⟨_, h, _⟩ | ⟨h, _⟩
    · exact h
    · rw [← pushKind_const, hc] at h; cases h

/-- C82 is false of the code: an opcode without a name cannot be printed, nor any script that contains it, although
both can be made and parsed. -/
theorem C82_nameless_refuted (o : Opcode) (h : ¬ Named o.number) : o.repr = .error .keyError ∧
    (Instruction.mk o none).repr = .error .keyError ∧ Instruction.make o = .ok ⟨o, none⟩ ∧
    ∃ s, Script.fromBytes [o.number] = .ok s ∧ s.repr = .error .keyError := by
  obtain ⟨b⟩ := o
  have hn := name_unnamed b h
  have hp : pushKind b = .plain := by
    have : ∀ b : Byte, ¬ Named b → pushKind b = .plain := by decide +kernel
    exact this b h
  have hpush := (pushKind_plain b).2 hp
  have hc : (Opcode.mk b).isConstPush = false := by
    rw [push_split] at hpush
    exact (Bool.or_eq_false_iff.1 hpush).1
  have hi : (Instruction.mk ⟨b⟩ none).repr = .error .keyError := by simp [Instruction.repr, hn]
  refine ⟨by simp [Opcode.repr, hc, hn], hi, ?_, ?_⟩
  · rw [instr_make_ok_iff]
    exact ⟨rfl, by simp [Instruction.wire, Wf, hp]⟩
  · have : ∀ b : Byte, ¬ Named b → Script.fromBytes [b] = .ok ⟨.generic, [⟨⟨b⟩, none⟩]⟩ := by decide +kernel
    exact ⟨_, this b h, by simp [Script.repr, Script.reprs, hi, Except.map]⟩

/-- C82. Opcodes that print the same are the same. -/
theorem C82_opcode_injective (o p : Opcode) (t : Text) (ho : o.repr = .ok t) (hp : p.repr = .ok t) : o = p := by
  have : ∀ o : Opcode, o.repr = .ok t → ∃ r, t = "<Opcode ".toList ++ r ∧
      ((∃ r', r = "PUSH ".toList ++ r') ∧ o.isConstPush = true ∧ r = "PUSH ".toList ++ Opcode.decText o.number.val ++ " BYTES>".toList ∨
        o.isConstPush = false ∧ ∃ s, r = Opcode.decText o.number.val ++ ':' :: s) := by
    intro o h
    unfold Opcode.repr at h
    cases hc : o.isConstPush with
    | true =>
      rw [hc, if_pos rfl] at h
      exact ⟨"PUSH ".toList ++ Opcode.decText o.number.val ++ " BYTES>".toList, (Except.ok.inj h).symm.trans (by simp),
        .inl ⟨⟨Opcode.decText o.number.val ++ " BYTES>".toList, by simp⟩, rfl, rfl⟩⟩
    | false =>
      rw [hc, if_neg (by simp)] at h
      cases hn : o.name with
      | error e => rw [hn] at h; cases h
      | ok name =>
        rw [hn] at h
        exact ⟨Opcode.decText o.number.val ++ ": ".toList ++ name ++ ">".toList,
          (Except.ok.inj h).symm.trans (by simp), .inr ⟨rfl, ' ' :: name ++ ">".toList, by simp⟩⟩
  have num : ∀ n s, ∀ r', Opcode.decText n ++ ':' :: s ≠ "PUSH ".toList ++ r' := by
    intro n s r' h
    obtain ⟨h1, h2⟩ := decText_chars n
    cases hd : Opcode.decText n with
    | nil => exact h1 hd
    | cons c ds =>
      rw [hd] at h
      simp only [String.reduceToList, List.cons_append, List.cons.injEq] at h
      have := (h2 c (by rw [hd]; simp)).2.1
      rw [h.1] at this
      exact absurd this (by decide)
  have colon : ∀ n, ':' ∉ Opcode.decText n := by
    intro n hm
    have := ((decText_chars n).2 _ hm).2.1
    exact absurd this (by decide)
  obtain ⟨r, e1, h1⟩ := this o ho
  obtain ⟨s, e2, h2⟩ := this p hp
  have hrs : r = s := List.append_cancel_left (e1.symm.trans e2)
  subst hrs
  rcases h1 with ⟨⟨r', hr⟩, _, h1⟩ | ⟨_, s1, h1⟩ <;> rcases h2 with ⟨⟨r'', hr'⟩, _, h2⟩ | ⟨_, s2, h2⟩
  · rw [h1] at h2
    simp only [List.append_assoc, List.append_cancel_left_eq, List.append_cancel_right_eq] at h2
    obtain ⟨o⟩ := o
    obtain ⟨p⟩ := p
    exact congrArg Opcode.mk (Fin.ext (decText_inj h2))
  · exact absurd (h2.symm.trans hr) (num _ _ _)
  · exact absurd (h1.symm.trans hr') (num _ _ _)
  · have := (cut_unique (colon _) (colon _) (h1.symm.trans h2)).1
    obtain ⟨o⟩ := o
    obtain ⟨p⟩ := p
    exact congrArg Opcode.mk (Fin.ext (decText_inj this))

example : (Opcode.num 118).repr = .ok "<Opcode 118: OP_DUP>".toList ∧
    (Opcode.num 20).repr = .ok "<Opcode PUSH 20 BYTES>".toList ∧ (Opcode.num 200).repr = .error .keyError := by
  decide +kernel

/-! ## Instructions and scripts -/

theorem hex_no {b : Bytes} {c : Char} (hc : c ∈ encodeHex b) : c ≠ '>' ∧ c ≠ '\'' ∧ c ≠ ',' ∧ c.toNat < 128 := by
  have h := (decodeHex_iff (encodeHex b) b).1 (decodeHex_encodeHex b)
  have : ∀ c ∈ hexChars, c ≠ '>' ∧ c ≠ '\'' ∧ c ≠ ',' ∧ c.toNat < 128 := by decide
  exact this c (h.1 c hc)

/-- What an instruction prints as. -/
theorem instruction_repr (i : Instruction) (t : Text) (h : i.repr = .ok t) : ∃ u name, t = u ++ ['>'] ∧ '>' ∉ u ∧
    i.opcode.name = .ok name ∧ (i.opcode.isPush = true ∧ (∃ d, i.data = some d ∧
        u = "<Instruction: ".toList ++ (name ++ (' ' :: '\'' :: (encodeHex d.val ++ ['\''])))) ∨
      i.opcode.isPush = false ∧ u = "<Instruction: ".toList ++ name) := by
  obtain ⟨⟨o⟩, d⟩ := i
  unfold Instruction.repr at h
  cases hn : (Opcode.mk o).name with
  | error e => rw [hn] at h; cases h
  | ok name =>
    have hno := name_no hn
    rw [hn] at h
    cases hp : (Opcode.mk o).isPush with
    | true =>
      simp only [hp, if_true] at h
      cases d with
      | none => cases h
      | some d =>
        refine ⟨_, name, (Except.ok.inj h).symm.trans ?_, ?_, rfl, .inl ⟨rfl, d, rfl, rfl⟩⟩
        · simp
        · have : '>' ∉ encodeHex d.val := fun hm => (hex_no hm).1 rfl
          simp only [List.mem_append, List.mem_cons, not_or]
          refine ⟨by decide, hno.1, by decide, by decide, this, by decide⟩
    | false =>
      simp only [hp] at h
      refine ⟨_, name, (Except.ok.inj h).symm.trans ?_, ?_, rfl, .inr ⟨rfl, rfl⟩⟩
      · simp
      · simp only [List.mem_append, not_or]
        exact ⟨by decide, hno.1⟩

theorem instruction_repr_inj {i j : Instruction} {t : Text} (hi : i.repr = .ok t) (hj : j.repr = .ok t)
    (wi : Wf i.wire) (wj : Wf j.wire) : i.wire = j.wire := by
  obtain ⟨u, n, e, hu, hn, h⟩ := instruction_repr i t hi
  obtain ⟨v, m, e', hv, hm, g⟩ := instruction_repr j t hj
  have huv : u = v := List.append_cancel_right (e.symm.trans e')
  subst huv
  obtain ⟨o, d⟩ := i
  obtain ⟨p, d'⟩ := j
  simp only at hn hm h g
  obtain ⟨o⟩ := o
  obtain ⟨p⟩ := p
  have no := name_no hn
  have np := name_no hm
  rcases h with ⟨hp, x, rfl, h⟩ | ⟨hp, h⟩ <;> rcases g with ⟨gp, y, rfl, g⟩ | ⟨gp, g⟩
  · have := List.append_cancel_left (h.symm.trans g)
    obtain ⟨h1, h2⟩ := cut_unique no.2.2 np.2.2 this
    subst h1
    have := name_inj hn hm
    simp only [List.cons.injEq, true_and, List.append_cancel_right_eq] at h2
    simp only [Opcode.mk.injEq] at this
    simp [Instruction.wire, this, encodeHex_inj h2]
  · have := List.append_cancel_left (h.symm.trans g)
    rw [← this] at np
    simp at np
  · have := List.append_cancel_left (h.symm.trans g)
    rw [this] at no
    simp at no
  · have := List.append_cancel_left (h.symm.trans g)
    subst this
    have := name_inj hn hm
    simp only [Opcode.mk.injEq] at this
    subst this
    have hpk := (pushKind_plain o).1 hp
    cases d with
    | some d => simp [Instruction.wire, Wf, hpk] at wi
    | none => cases d' with
      | some d => simp [Instruction.wire, Wf, hpk] at wj
      | none => rfl

/-- An instruction can be printed exactly if its opcode has a name. -/
theorem instruction_repr_ok (i : Instruction) (w : Wf i.wire) :
    (Named i.opcode.number ∧ ∃ t, i.repr = .ok t) ∨ (¬ Named i.opcode.number ∧ i.repr = .error .keyError) := by
  obtain ⟨⟨o⟩, d⟩ := i
  by_cases hn : Named o
  · obtain ⟨name, h, _⟩ := name_named o hn
    refine .inl ⟨hn, ?_⟩
    unfold Instruction.repr
    simp only [h]
    cases hp : (Opcode.mk o).isPush with
    | false => exact ⟨_, rfl⟩
    | true =>
      cases d with
      | some d => exact ⟨_, rfl⟩
      | none =>
        simp only [Instruction.wire, Wf, Option.map] at w
        rw [← pushKind_plain, hp] at w
        cases w
  · exact .inr ⟨hn, by simp [Instruction.repr, name_unnamed o hn]⟩

theorem reprs_ok (is : List Instruction) (w : ∀ i ∈ is, Wf i.wire) :
    ((∀ i ∈ is, Named i.opcode.number) ∧ ∃ ts, Script.reprs is = .ok ts) ∨
    (¬ (∀ i ∈ is, Named i.opcode.number) ∧ Script.reprs is = .error .keyError) := by
  induction is with
  | nil => exact .inl ⟨by simp, [], rfl⟩
  | cons i is ih =>
    rcases instruction_repr_ok i (w i (by simp)) with ⟨h1, t, h2⟩ | ⟨h1, h2⟩
    · rcases ih fun j hj => w j (by simp [hj]) with ⟨g1, ts, g2⟩ | ⟨g1, g2⟩
      · exact .inl ⟨by simpa using ⟨h1, g1⟩, t :: ts, by simp [Script.reprs, h2, g2]⟩
      · refine .inr ⟨fun h => g1 fun j hj => h j (by simp [hj]), by simp [Script.reprs, h2, g2]⟩
    · exact .inr ⟨fun h => h1 (h i (by simp)), by simp [Script.reprs, h2]⟩

/-- C82, part that holds: a well-formed script prints exactly if all its opcodes have a name; otherwise KeyError. -/
theorem C82_script_partial (s : Script) (w : s.WellFormed) :
    ((∀ i ∈ s.instructions, Named i.opcode.number) → ∃ t, s.repr = .ok t) ∧
    (¬ (∀ i ∈ s.instructions, Named i.opcode.number) → s.repr = .error .keyError) := by
  rcases reprs_ok s.instructions w with ⟨h, ts, e⟩ | ⟨h, e⟩
  · exact ⟨fun _ => ⟨_, by unfold Script.repr; rw [e]; rfl⟩, fun g => absurd h g⟩
  · exact ⟨fun g => absurd g h, fun _ => by unfold Script.repr; rw [e]; rfl⟩

/-- The texts of a list of instructions. -/
theorem reprs_forall {is : List Instruction} {ts : List Text} (h : Script.reprs is = .ok ts) :
    List.Forall₂ (fun i t => i.repr = .ok t) is ts := by
  induction is generalizing ts with
  | nil => cases h; exact .nil
  | cons i is ih =>
    unfold Script.reprs at h
    cases hi : i.repr with
    | error e => rw [hi] at h; cases h
    | ok t =>
      rw [hi] at h
      cases hs : Script.reprs is with
      | error e => rw [hs] at h; cases h
      | ok us => rw [hs] at h; cases h; exact .cons hi (ih hs)

/-- A text that ends at its first `>`. -/
def Closed (t : Text) : Prop := ∃ u, t = u ++ ['>'] ∧ '>' ∉ u

theorem closed_cut {t t' r r' : Text} (h : Closed t) (h' : Closed t') (e : t ++ r = t' ++ r') : t = t' ∧ r = r' := by
  obtain ⟨u, rfl, hu⟩ := h
  obtain ⟨v, rfl, hv⟩ := h'
  simp only [List.append_assoc, List.singleton_append] at e
  obtain ⟨h1, h2⟩ := cut_unique hu hv e
  exact ⟨by rw [h1], h2⟩

theorem tail_inj : ∀ {ts us : List Text}, (∀ t ∈ ts, Closed t) → (∀ t ∈ us, Closed t) →
    (ts.map (", ".toList ++ ·)).flatten ++ [')'] = (us.map (", ".toList ++ ·)).flatten ++ [')'] → ts = us
  | [], [], _, _, _ => rfl
  | [], u :: us, _, _, e => by simp at e
  | t :: ts, [], _, _, e => by simp at e
  | t :: ts, u :: us, h, g, e => by
    simp only [List.map_cons, List.flatten_cons, List.append_assoc, List.append_cancel_left_eq] at e
    obtain ⟨h1, h2⟩ := closed_cut (h t (by simp)) (g u (by simp)) e
    rw [h1, tail_inj (fun x hx => h x (by simp [hx])) (fun x hx => g x (by simp [hx])) h2]

theorem tupleText_inj {ts us : List Text} (h : ∀ t ∈ ts, Closed t) (g : ∀ t ∈ us, Closed t)
    (e : tupleText ts = tupleText us) : ts = us := by
  have ne : ∀ t, Closed t → ∀ r, t ++ r ≠ [')'] := by
    rintro t ⟨u, rfl, hu⟩ r he
    cases u with
    | nil => simp at he
    | cons a u => simp at he
  match ts, us, h, g, e with
  | [], [], _, _, _ => rfl
  | [], [u], _, g, e => simp [tupleText] at e; exact absurd e.symm (ne u (g u (by simp)) _)
  | [], u :: v :: us, _, g, e => simp [tupleText] at e; exact absurd e.symm (ne u (g u (by simp)) _)
  | [t], [], h, _, e => simp [tupleText] at e; exact absurd e (ne t (h t (by simp)) _)
  | t :: t' :: ts, [], h, _, e => simp [tupleText] at e; exact absurd e (ne t (h t (by simp)) _)
  | [t], [u], h, g, e =>
    simp only [tupleText, List.cons_append, List.cons.injEq, true_and, List.append_cancel_right_eq] at e
    rw [e]
  | [t], u :: v :: us, h, g, e =>
    simp only [tupleText, List.cons_append, List.cons.injEq, true_and, List.append_assoc] at e
    have := (closed_cut (h t (by simp)) (g u (by simp)) e).2
    simp at this
  | t :: t' :: ts, [u], h, g, e =>
    simp only [tupleText, List.cons_append, List.cons.injEq, true_and, List.append_assoc] at e
    have := (closed_cut (h t (by simp)) (g u (by simp)) e).2
    simp at this
  | t :: t' :: ts, u :: u' :: us, h, g, e =>
    simp only [tupleText, List.cons_append, List.cons.injEq, true_and, List.append_assoc] at e
    obtain ⟨h1, h2⟩ := closed_cut (h t (by simp)) (g u (by simp)) e
    have := tail_inj (ts := t' :: ts) (us := u' :: us) (fun x hx => h x (by simp [List.mem_cons.1 hx]))
      (fun x hx => g x (by simp [List.mem_cons.1 hx])) h2
    rw [h1, this]

/-- C82. Well-formed scripts that print the same are equal. -/
theorem C82_script_injective (s t : Script) (x : Text) (ws : s.WellFormed) (wt : t.WellFormed) (hs : s.repr = .ok x)
    (ht : t.repr = .ok x) : s.eq t = true := by
  unfold Script.repr at hs ht
  cases es : Script.reprs s.instructions with
  | error e => rw [es] at hs; cases hs
  | ok ts =>
    cases et : Script.reprs t.instructions with
    | error e => rw [et] at ht; cases ht
    | ok us =>
      rw [es] at hs
      rw [et] at ht
      have fs := reprs_forall es
      have ft := reprs_forall et
      have cl : ∀ {is : List Instruction} {ts : List Text}, List.Forall₂ (fun i t => i.repr = .ok t) is ts →
          ∀ t ∈ ts, Closed t := by
        intro is ts h
        induction h with
        | nil => simp
        | cons a _ ih =>
          intro t ht
          rcases List.mem_cons.1 ht with rfl | ht
          · obtain ⟨u, _, e, hu, _⟩ := instruction_repr _ _ a
            exact ⟨u, e, hu⟩
          · exact ih t ht
      have e := tupleText_inj (cl fs) (cl ft) ((Except.ok.inj hs).trans (Except.ok.inj ht).symm)
      subst e
      rw [eq_iff_wire]
      unfold Script.WellFormed at ws wt
      generalize s.instructions = is at *
      generalize t.instructions = js at *
      clear hs ht es et cl
      induction fs generalizing js with
      | nil => cases ft; rfl
      | cons a _ ih =>
        cases ft with
        | cons b ft =>
          rw [List.map_cons, List.map_cons, instruction_repr_inj a b (ws _ (by simp)) (wt _ (by simp)),
            ih (fun i hi => ws i (by simp [hi])) _ (fun i hi => wt i (by simp [hi])) ft]

example : (Script.mk .payToPubkeyOut [⟨.num 118, none⟩, ⟨.num 2, some ⟨.bytearray, [171, 7]⟩⟩]).repr =
      .ok "(<Instruction: OP_DUP>, <Instruction: _PUSH_2_BYTES 'ab07'>)".toList ∧
    (Script.mk .generic [⟨.num 76, some ⟨.str, []⟩⟩]).repr = .ok "(<Instruction: OP_PUSHDATA1 ''>,)".toList ∧
    (Script.mk .generic []).repr = .ok "()".toList := by decide +kernel

/-! ## Keys and addresses -/

theorem netOf_ascii (test : Bool) : isAscii (netOf test).name = true := by cases test <;> decide

theorem isAscii_append (a b : Text) : isAscii (a ++ b) = (isAscii a && isAscii b) := by
  simp [isAscii]

theorem hex_ascii (b : Bytes) : isAscii (encodeHex b) = true := by
  simp only [isAscii, List.all_eq_true, decide_eq_true_eq]
  exact fun c hc => (hex_no hc).2.2.2

theorem netOf_name_inj {a b : Bool} (h : (netOf a).name = (netOf b).name) : a = b := by
  revert h; cases a <;> cases b <;> decide

/-- C82. A private key of a known network prints as its 64 hexadecimal digits and the name of the network. -/
theorem C82_private_key (k : PrivateKey) (test : Bool) (hn : k.network = netOf test) :
    k.repr = .ok ("<PrivateKey: ".toList ++ hexText k.toBytes ++ ", network: ".toList ++
      (if test then "testnet" else "livenet").toList ++ ">".toList) := by
  have : (netOf test).name = (if test then "testnet" else "livenet").toList := by cases test <;> rfl
  unfold PrivateKey.repr asciiRepr PrivateKey.toHex
  rw [hn, if_pos, this, hexText_eq]
  simp only [isAscii_append, hex_ascii, netOf_ascii]
  decide

/-- C82 is false of the code: printing a private key reveals the secret, to any log that shows it. -/
theorem C82_secret_refuted : ∃ attacker : Text → Int, ∀ (k : PrivateKey) (t : Text), 0 < k.secret → k.secret < secpN →
    k.repr = .ok t → attacker t = k.secret := by
  refine ⟨fun t => match decodeHex ((t.drop 13).take 64) with
    | .ok b => beValue b
    | .error _ => 0, ?_⟩
  intro k t h1 h2 h
  have hk := C14_to_bytes k h1 h2
  unfold PrivateKey.repr asciiRepr at h
  split at h
  · rw [← Except.ok.inj h]
    have hl : k.toHex.length = 64 := by
      unfold PrivateKey.toHex
      rw [encodeHex_length, hk.1]
    have : (("<PrivateKey: ".toList ++ k.toHex ++ ", network: ".toList ++ k.network.name ++ ">".toList).drop 13).take 64 =
        k.toHex := by
      simp only [List.append_assoc]
      rw [List.drop_left' (by decide), List.take_left' hl]
    simp only [this]
    unfold PrivateKey.toHex
    rw [decodeHex_encodeHex]
    exact hk.2
  · cases h

/-- C82 is false of the code: the two keys with the same secret, compressed or not, print the same. -/
theorem C82_private_key_refuted (secret : Int) (n : Network) :
    (PrivateKey.mk secret n true).repr = (PrivateKey.mk secret n false).repr := rfl

/-- C82, part that holds: private keys of known networks that print the same have the same secret and network.
Missing: the compression flag (see the refutation). -/
theorem C82_private_key_partial (k l : PrivateKey) (t : Text) (a b : Bool) (hk : k.network = netOf a)
    (hl : l.network = netOf b) (k1 : 0 < k.secret) (k2 : k.secret < secpN) (l1 : 0 < l.secret) (l2 : l.secret < secpN)
    (h : k.repr = .ok t) (g : l.repr = .ok t) : k.secret = l.secret ∧ k.network = l.network := by
  rw [C82_private_key l b hl] at g
  rw [C82_private_key k a hk] at h
  have e := Except.ok.inj (h.trans g.symm)
  simp only [List.append_assoc, List.append_cancel_left_eq] at e
  have lk := (C14_to_bytes k k1 k2).1
  have ll := (C14_to_bytes l l1 l2).1
  obtain ⟨e1, e2⟩ := List.append_inj e (by rw [hexText_eq, hexText_eq, encodeHex_length, encodeHex_length, lk, ll])
  rw [hexText_eq, hexText_eq] at e1
  refine ⟨?_, ?_⟩
  · rw [← (C14_to_bytes k k1 k2).2, ← (C14_to_bytes l l1 l2).2, encodeHex_inj e1]
  · rw [hk, hl]
    revert e2
    cases a <;> cases b <;> simp

/-- C82. A public key of a known network prints as the hexadecimal digits of its SEC encoding and the network; public
keys that print the same are the same. -/
theorem C82_public_key (k : PublicKey) (test : Bool) (hn : k.network = netOf test) (hx : reduced k.pair.1)
    (hy : reduced k.pair.2) : ∃ b, Sec k.pair.1.toNat k.pair.2.toNat k.compressed b ∧
    k.repr = .ok ("<PublicKey: ".toList ++ hexText b ++ ", network: ".toList ++
      (if test then "testnet" else "livenet").toList ++ ">".toList) := by
  obtain ⟨b, hb, hs⟩ := C18_to_bytes k hx hy
  have : (netOf test).name = (if test then "testnet" else "livenet").toList := by cases test <;> rfl
  refine ⟨b, hs, ?_⟩
  have hh : k.toHex = .ok (encodeHex b) := by unfold PublicKey.toHex; rw [hb]; rfl
  unfold PublicKey.repr asciiRepr
  simp only [hh]
  rw [hn, if_pos, this, hexText_eq]
  simp only [isAscii_append, hex_ascii, netOf_ascii]
  decide

theorem C82_public_key_injective (k l : PublicKey) (t : Text) (a b : Bool) (hk : k.network = netOf a)
    (hl : l.network = netOf b) (kc : OnSecp k.pair.1 k.pair.2) (lc : OnSecp l.pair.1 l.pair.2)
    (kx : reduced k.pair.1) (ky : reduced k.pair.2) (lx : reduced l.pair.1) (ly : reduced l.pair.2)
    (h : k.repr = .ok t) (g : l.repr = .ok t) : k = l := by
  obtain ⟨x, sx, hx⟩ := C82_public_key k a hk kx ky
  obtain ⟨y, sy, hy⟩ := C82_public_key l b hl lx ly
  rw [hx] at h
  rw [hy] at g
  have e := Except.ok.inj (h.trans g.symm)
  simp only [List.append_assoc, List.append_cancel_left_eq, hexText_eq] at e
  have comma : ∀ b : Bytes, ',' ∉ encodeHex b := fun b hm => (hex_no hm).2.2.1 rfl
  obtain ⟨e1, e2⟩ := cut_unique (comma x) (comma y) e
  have e1 := encodeHex_inj e1
  subst e1
  have nets : k.network = l.network := by
    rw [hk, hl]
    revert e2
    cases a <;> cases b <;> simp
  have p1 := C18_from_sec _ _ _ k.network x kc kx ky sx
  have p2 := C18_from_sec _ _ _ k.network x lc lx ly sy
  have := Except.ok.inj (p1.symm.trans p2)
  obtain ⟨kp, kn, kcm⟩ := k
  obtain ⟨lp, ln, lcm⟩ := l
  simp only at nets
  subst nets
  simpa using this

theorem digits58_mem {t : Text} {ds : List Nat} (h : Digits58 t ds) : ∀ c ∈ t, c ∈ alphabet58 := by
  induction h with
  | nil => simp
  | cons hc _ ih =>
    intro x hx
    rcases List.mem_cons.1 hx with rfl | hx
    · exact List.mem_of_getElem? hc
    · exact ih x hx

/-- C82. An address of a known network prints as its Base58Check text, its type and the network. -/
theorem C82_address (H : Hashes) (phash : Bytes) (h : phash.length = 20) (test isScript : Bool) :
    ∃ b t, AddressBytes phash test isScript b ∧ Base58Check H b t ∧
      Address.repr H ⟨phash, netOf test, typeOf isScript⟩ = .ok ("<Address: ".toList ++ t ++ ", type: ".toList ++
        (if isScript then "Script" else "PublicKey").toList ++ ", network: ".toList ++
        (if test then "testnet" else "livenet").toList ++ ">".toList) := by
  have hb := (C15_to_bytes phash h test isScript _).2 ⟨h, rfl⟩
  have hc := (base58Check_iff H (pick (if isScript then p2shVersions else p2pkhVersions) test :: phash) _).2
    (decode_encodeBase58h H _)
  refine ⟨_, _, ⟨h, rfl⟩, hc, ?_⟩
  have hs : Address.toString H ⟨phash, netOf test, typeOf isScript⟩ = .ok (encodeBase58h H
      (pick (if isScript then p2shVersions else p2pkhVersions) test :: phash)) := by
    unfold Address.toString
    rw [hb]
  have ha : isAscii (encodeBase58h H (pick (if isScript then p2shVersions else p2pkhVersions) test :: phash)) = true := by
    obtain ⟨ds, hd, _⟩ := hc
    exact digits58_ascii hd
  unfold Address.repr
  simp only [hs]
  generalize encodeBase58h H (pick (if isScript then p2shVersions else p2pkhVersions) test :: phash) = t at ha
  have h1 : (netOf test).name = (if test then "testnet" else "livenet").toList := by cases test <;> rfl
  have h2 : (typeOf isScript).name = (if isScript then "Script" else "PublicKey").toList := by cases isScript <;> rfl
  unfold asciiRepr
  rw [if_pos, h1, h2]
  simp only [isAscii_append, ha, netOf_ascii]
  cases isScript <;> decide

/-- C82. Addresses of known networks that print the same are the same. -/
theorem C82_address_injective (H : Hashes) (p q : Bytes) (hp : p.length = 20) (hq : q.length = 20) (a b s u : Bool)
    (t : Text) (h : Address.repr H ⟨p, netOf a, typeOf s⟩ = .ok t) (g : Address.repr H ⟨q, netOf b, typeOf u⟩ = .ok t) :
    p = q ∧ a = b ∧ s = u := by
  obtain ⟨x, tx, hx, bx, ex⟩ := C82_address H p hp a s
  obtain ⟨y, ty, hy, by', ey⟩ := C82_address H q hq b u
  rw [ex] at h
  rw [ey] at g
  have e := Except.ok.inj (h.trans g.symm)
  simp only [List.append_assoc, List.append_cancel_left_eq] at e
  have comma : ∀ {x : Bytes} {t : Text}, Base58Check H x t → ',' ∉ t := by
    rintro x t ⟨ds, hd, _⟩ hm
    exact absurd (digits58_mem hd _ hm) (by decide)
  obtain ⟨e1, e2⟩ := cut_unique (comma bx) (comma by') e
  subst e1
  have dx := (base58Check_iff H x tx).1 bx
  have dy := (base58Check_iff H y tx).1 by'
  have hxy := Except.ok.inj (dx.symm.trans dy)
  subst hxy
  obtain ⟨_, h1⟩ := hx
  obtain ⟨_, h2⟩ := hy
  have hpq := (List.cons.inj (h1.symm.trans h2)).2
  refine ⟨hpq, ?_⟩
  revert e2
  cases a <;> cases b <;> cases s <;> cases u <;> simp

example : PrivateKey.repr ⟨5, Network.testnet, true⟩ = .ok ("<PrivateKey: 000000000000000000000000000000000000000" ++
    "0000000000000000000000005, network: testnet>").toList := by decide +kernel

/-! ## Amounts and URIs -/

/-- C82. A unit prints as its number of satoshis; units that print the same have the same number. -/
theorem C82_unit (u v : BtcUnit) : (∃ d, Decimal d u.satoshis.natAbs ∧
    u.repr = "<Unit: ".toList ++ (if u.satoshis < 0 then '-' :: d else d) ++ " satoshis>".toList) ∧
    (u.repr = v.repr → u.satoshis = v.satoshis) := by
  refine ⟨⟨_, decimal_decText _, ?_⟩, ?_⟩
  · unfold BtcUnit.repr BtcUnit.str showInt
    split <;> simp
  · intro h
    unfold BtcUnit.repr BtcUnit.str showInt at h
    have h := List.append_cancel_right (List.append_cancel_left (List.append_cancel_right h |>.trans (by rfl)))
    have minus : ∀ n, '-' ∉ Opcode.decText n := fun n hm => absurd ((decText_chars n).2 _ hm).1 (by decide)
    by_cases h1 : u.satoshis < 0 <;> by_cases h2 : v.satoshis < 0
    · rw [if_pos h1, if_pos h2, List.cons.injEq] at h
      have := decText_inj h.2
      omega
    · rw [if_pos h1, if_neg h2] at h
      exact absurd (h ▸ List.mem_cons_self) (minus _)
    · rw [if_neg h1, if_pos h2] at h
      exact absurd (h ▸ List.mem_cons_self) (minus _)
    · rw [if_neg h1, if_neg h2] at h
      have := decText_inj h
      omega

/-- C82. A URI prints as the text of `to_uri`, and can be printed exactly if that succeeds. -/
theorem C82_uri (H : Hashes) (u : URI) (t : Text) :
    u.repr H = .ok ("<URI: ".toList ++ t ++ ">".toList) ↔ u.toUri H = .ok t := by
  unfold URI.repr
  cases hu : u.toUri H with
  | error e => simp [Except.map]
  | ok x =>
    simp only [Except.map, Except.ok.injEq]
    constructor
    · intro h; exact List.append_cancel_left (List.append_cancel_right h)
    · rintro rfl; rfl

example : BtcUnit.repr ⟨1300000000, .fin 13000000, .fin 13000, .fin 13⟩ = "<Unit: 1300000000 satoshis>".toList ∧
    BtcUnit.repr ⟨-7, .fin 0, .fin 0, .fin 0⟩ = "<Unit: -7 satoshis>".toList := by decide +kernel

end Bitforge
