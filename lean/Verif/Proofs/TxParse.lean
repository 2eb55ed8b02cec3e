import Verif.Spec.TxParse
import Verif.Proofs.Tx

/-! Helper lemmas on parsing transactions: what is accepted, and what happens to truncated strings. -/

namespace Bitforge
open Spec

/-! ## Counts -/

theorem readVarint_form {n : Nat} {c : Bytes} (h : CountForm n c) (rest : Bytes) :
    Buffer.readVarint (c ++ rest) = (.ok n, rest) := by
  cases h with
  | one h =>
    rw [List.singleton_append, readVarint_cons]
    exact if_pos h
  | two h =>
    rw [List.cons_append, readVarint_cons, if_neg (by decide), if_pos (by rfl), Rd.bind_ok (read_le 2 _ _),
      decodeInt_le 2 _ h]
    rfl
  | four h =>
    rw [List.cons_append, readVarint_cons, if_neg (by decide), if_neg (by decide), if_pos (by rfl),
      Rd.bind_ok (read_le 4 _ _), decodeInt_le 4 _ h]
    rfl
  | eight h =>
    rw [List.cons_append, readVarint_cons, if_neg (by decide), if_neg (by decide), if_neg (by decide),
      Rd.bind_ok (read_le 8 _ _), decodeInt_le 8 _ h]
    rfl

theorem readVarint_form_ok {s s' : Bytes} {n : Nat} (h : Buffer.readVarint s = (.ok n, s')) :
    ∃ c, CountForm n c ∧ s = c ++ s' := by
  have fixed : ∀ (L : Nat) (s : Bytes),
      Rd.bind (Buffer.read L) (fun b => Rd.pure (decodeInt b (bigEndian := false))) s = (.ok n, s') →
      s = le L n ++ s' ∧ n < 256 ^ L := by
    intro L s h
    obtain ⟨b, s1, h1, h2⟩ := Rd.bind_ok_iff.1 h
    simp only [Rd.pure_apply, Prod.mk.injEq, Except.ok.injEq] at h2
    obtain ⟨rfl, rfl⟩ := h2
    exact read_decode h1
  cases s with
  | nil => rw [readVarint_nil] at h; simp at h
  | cons x s =>
    rw [readVarint_cons] at h
    have hx := x.isLt
    split at h
    · next h1 =>
      simp only [Prod.mk.injEq, Except.ok.injEq] at h
      obtain ⟨rfl, rfl⟩ := h
      exact ⟨[x], .one x.val h1, rfl⟩
    · split at h
      · next h1 h2 =>
        obtain ⟨rfl, hn⟩ := fixed 2 s h
        obtain rfl : x = 253 := Fin.ext h2
        exact ⟨_, .two n (by norm_num at hn ⊢; omega), rfl⟩
      · split at h
        · next h1 h2 h3 =>
          obtain ⟨rfl, hn⟩ := fixed 4 s h
          obtain rfl : x = 254 := Fin.ext h3
          exact ⟨_, .four n (by norm_num at hn ⊢; omega), rfl⟩
        · next h1 h2 h3 =>
          obtain ⟨rfl, hn⟩ := fixed 8 s h
          obtain rfl : x = 255 := Fin.ext (by show x.val = 255; omega)
          exact ⟨_, .eight n (by norm_num at hn ⊢; omega), rfl⟩

theorem countForm_lt {n : Nat} {c : Bytes} (h : CountForm n c) : n < 2 ^ 64 := by
  cases h <;> omega

theorem countForm_compact (n : Nat) (h : n < 2 ^ 64) : CountForm n (compactSize n) := by
  unfold compactSize
  split
  · next h1 => exact .one n h1
  · split
    · next h2 => exact .two n h2
    · split
      · next h3 => exact .four n h3
      · exact .eight n h

theorem wireIn_form (i : WireIn) (h : i.Fits) : i.Form i.bytes := ⟨_, countForm_compact _ h.2.2.1, rfl⟩

theorem wireOut_form (o : WireOut) (h : o.Fits) : o.Form o.bytes := ⟨_, countForm_compact _ h.2, rfl⟩

theorem listed_map {β : Type} {R : β → Bytes → Prop} {g : β → Bytes} : ∀ (ys : List β), (∀ y ∈ ys, R y (g y)) →
    Listed R ys (ys.map g).flatten
  | [], _ => .nil
  | y :: ys, h => .cons (h y (by simp)) (listed_map ys fun z hz => h z (by simp [hz]))

/-- The canonical serialisation is one of the forms. -/
theorem wireTx_form (t : WireTx) (h : t.Fits) : t.Form t.bytes :=
  ⟨_, _, _, _, countForm_compact _ (by have := h.2.2.2.2.1; omega), listed_map _ fun i hi => wireIn_form i (h.2.2.1 i hi),
    countForm_compact _ (by have := h.2.2.2.2.2; omega), listed_map _ fun o ho => wireOut_form o (h.2.2.2.1 o ho), rfl⟩

/-! ## Reading a form -/

/-- The string is a script of complete instructions. -/
def Complete (b : Bytes) : Prop := ∃ ws, Encodes ws b

theorem input_form (cls : InputClass) (w : WireIn) (hw : w.Fits) (he : Complete w.script) {b : Bytes} (hb : w.Form b)
    (rest : Bytes) :
    (¬ CrashesOn w.script ∧ ∃ i, Input.fromBuffer cls (b ++ rest) = (.ok i, rest) ∧ i.Shows w ∧ i.cls = cls) ∨
    (CrashesOn w.script ∧ (Input.fromBuffer cls (b ++ rest)).1 = .error .attributeError) := by
  obtain ⟨h1, h2, h3, h4⟩ := hw
  obtain ⟨ws, he⟩ := he
  obtain ⟨c, hc, rfl⟩ := hb
  have r : Input.fromBuffer cls (w.txid ++ le 4 w.index ++ c ++ w.script ++ le 4 w.sequence ++ rest) =
      Rd.bind (Rd.lift (Script.fromBytes w.script)) (fun script =>
      Rd.bind (Buffer.read 4) fun seq => Rd.pure ⟨cls, encodeHex w.txid.reverse, w.index, script,
        decodeInt seq (bigEndian := false)⟩) (le 4 w.sequence ++ rest) := by
    unfold Input.fromBuffer
    rw [List.append_assoc, List.append_assoc, List.append_assoc, List.append_assoc,
      Rd.bind_ok (read_append' 32 _ _ h1), Rd.bind_ok (read_le 4 _ _), Rd.bind_ok (readVarint_form hc _),
      Rd.bind_ok (read_append _ _), decodeInt_le 4 _ (by omega)]
  rw [crashesOn_iff he]
  rcases script_fromBytes ws _ he with ⟨hcr, s, hs, hws, _⟩ | ⟨hcr, hs⟩
  · refine .inl ⟨hcr, ⟨cls, encodeHex w.txid.reverse, w.index, s, w.sequence⟩, ?_, ?_, rfl⟩
    · rw [r, hs, lift_bind, Rd.bind_ok (read_le 4 _ _), decodeInt_le 4 _ (by omega)]
      rfl
    · exact ⟨(hexText_eq _).symm, rfl, by show Encodes s.wires w.script; rw [hws]; exact he, rfl⟩
  · right; exact ⟨hcr, by rw [r, hs]; rfl⟩

theorem output_form (w : WireOut) (hw : w.Fits) (he : Complete w.script) {b : Bytes} (hb : w.Form b) (rest : Bytes) :
    (¬ CrashesOn w.script ∧ ∃ o, Output.fromBuffer (b ++ rest) = (.ok o, rest) ∧ o.Shows w) ∨
    (CrashesOn w.script ∧ (Output.fromBuffer (b ++ rest)).1 = .error .attributeError) := by
  obtain ⟨h1, h2⟩ := hw
  obtain ⟨ws, he⟩ := he
  obtain ⟨c, hc, rfl⟩ := hb
  have r : Output.fromBuffer (le 8 w.amount ++ c ++ w.script ++ rest) = Rd.bind (Rd.lift (Script.fromBytes w.script))
      (fun script => Rd.lift (Output.create w.amount script)) rest := by
    unfold Output.fromBuffer
    rw [List.append_assoc, List.append_assoc, Rd.bind_ok (read_le 8 _ _), Rd.bind_ok (readVarint_form hc _),
      Rd.bind_ok (read_append _ _), decodeInt_le 8 _ (by omega)]
  rw [crashesOn_iff he]
  rcases script_fromBytes ws _ he with ⟨hcr, s, hs, hws, hcl⟩ | ⟨hcr, hs⟩
  · obtain ⟨o, ho, ha, hos⟩ := create_of_classify w.amount s hcl
    refine .inl ⟨hcr, o, ?_, ⟨ha, by rw [hos, hws]; exact he⟩⟩
    rw [r, hs]
    show (Output.create _ _, _) = _
    rw [ho]
  · right; exact ⟨hcr, by rw [r, hs]; rfl⟩

theorem readMany_form {α β : Type} (f : Rd α) (F : β → Bytes → Prop) (R : α → β → Prop) (P : β → Prop) (bad : β → Prop)
    (hf : ∀ y b rest, P y → F y b → (¬ bad y ∧ ∃ x, f (b ++ rest) = (.ok x, rest) ∧ R x y) ∨
      (bad y ∧ (f (b ++ rest)).1 = .error .attributeError)) :
    ∀ {ys : List β} {bs : Bytes} (_ : Listed F ys bs) (rest : Bytes), (∀ y ∈ ys, P y) →
      ((∀ y ∈ ys, ¬ bad y) ∧ ∃ xs, Transaction.readMany f ys.length (bs ++ rest) = (.ok xs, rest) ∧
        List.Forall₂ R xs ys) ∨
      ((∃ y ∈ ys, bad y) ∧ (Transaction.readMany f ys.length (bs ++ rest)).1 = .error .attributeError) := by
  intro ys bs h
  induction h with
  | nil => intro rest _; exact .inl ⟨by simp, [], rfl, .nil⟩
  | @cons y b ys bs hy hys ih =>
    intro rest hp
    simp only [List.append_assoc, List.length_cons, Transaction.readMany]
    rcases hf y b (bs ++ rest) (hp y (by simp)) hy with ⟨hb, x, hx, hr⟩ | ⟨hb, hx⟩
    · rw [Rd.bind_ok hx]
      rcases ih rest (fun z hz => hp z (by simp [hz])) with ⟨hbs, xs, hxs, hrs⟩ | ⟨hbs, hxs⟩
      · left
        rw [Rd.bind_ok hxs]
        exact ⟨by simpa using ⟨hb, hbs⟩, x :: xs, rfl, .cons hr hrs⟩
      · right
        obtain ⟨z, hz, hbz⟩ := hbs
        refine ⟨⟨z, by simp [hz], hbz⟩, ?_⟩
        rcases hm : Transaction.readMany f ys.length (bs ++ rest) with ⟨r, s⟩
        rw [hm] at hxs
        simp only at hxs
        subst hxs
        rw [Rd.bind_err hm]
    · right
      refine ⟨⟨y, by simp, hb⟩, ?_⟩
      rcases hm : f (b ++ (bs ++ rest)) with ⟨r, s⟩
      rw [hm] at hx
      simp only at hx
      subst hx
      rw [Rd.bind_err hm]

theorem tx_form (w : WireTx) (hw : w.Fits) (hi : w.inputs ≠ []) (ho : w.outputs ≠ [])
    (hsi : ∀ i ∈ w.inputs, Complete i.script) (hso : ∀ o ∈ w.outputs, Complete o.script) {b : Bytes} (hb : w.Form b)
    (rest : Bytes) :
    (((∀ i ∈ w.inputs, ¬ CrashesOn i.script) ∧ ∀ o ∈ w.outputs, ¬ CrashesOn o.script) ∧
      ∃ t, Transaction.fromBuffer (b ++ rest) = (.ok t, rest) ∧ t.Shows w ∧ ∀ i ∈ t.inputs, i.cls = .generic) ∨
    (((∃ i ∈ w.inputs, CrashesOn i.script) ∨ ∃ o ∈ w.outputs, CrashesOn o.script) ∧
      (Transaction.fromBuffer (b ++ rest)).1 = .error .attributeError) := by
  obtain ⟨h1, h2, h3, h4, h5, h6⟩ := hw
  obtain ⟨c, bi, d, bo, hc, hli, hd, hlo, rfl⟩ := hb
  have pr : ∀ n, n < 2 ^ 63 → Transaction.pyRange n = .ok n := fun n hn => if_pos hn
  unfold Transaction.fromBuffer
  rw [List.append_assoc, List.append_assoc, List.append_assoc, List.append_assoc, List.append_assoc,
    Rd.bind_ok (read_le 4 _ _), Rd.bind_ok (readVarint_form hc _), pr _ h5, lift_bind,
    decodeInt_le 4 _ (by norm_num; omega)]
  rcases readMany_form (Input.fromBuffer .generic) WireIn.Form (fun i w => i.Shows w ∧ i.cls = .generic)
      (fun y => y.Fits ∧ Complete y.script) (fun y => CrashesOn y.script)
      (fun y b r hy hb => input_form .generic y hy.1 hy.2 hb r) hli _ (fun y hy => ⟨h3 y hy, hsi y hy⟩) with
    ⟨hci, is, his, hris⟩ | ⟨hci, his⟩
  · rw [Rd.bind_ok his, Rd.bind_ok (readVarint_form hd _), pr _ h6, lift_bind]
    rcases readMany_form Output.fromBuffer WireOut.Form Output.Shows
      (fun y => y.Fits ∧ Complete y.script) (fun y => CrashesOn y.script)
      (fun y b r hy hb => output_form y hy.1 hy.2 hb r) hlo _ (fun y hy => ⟨h4 y hy, hso y hy⟩) with
      ⟨hco, os, hos, hros⟩ | ⟨hco, hos⟩
    · left
      refine ⟨⟨hci, hco⟩, ⟨is, os, w.lockTime, w.version⟩, ?_, ?_, ?_⟩
      · rw [Rd.bind_ok hos, Rd.bind_ok (read_le 4 _ _), decodeInt_le 4 _ (by norm_num; omega)]
        show (Transaction.new _ _ _ _, rest) = _
        rw [new_some is os _ _ (by
            rintro rfl; exact hi (List.length_eq_zero_iff.1 hris.length_eq.symm)) (by
            rintro rfl; exact ho (List.length_eq_zero_iff.1 hros.length_eq.symm))
          (by omega)]
      · exact ⟨rfl, hris.imp fun _ _ h => h.1, hros, rfl⟩
      · intro i hmem
        obtain ⟨j, _, hj⟩ := forall₂_mem_left hris hmem
        exact hj.2
    · right
      refine ⟨.inr hco, ?_⟩
      rcases hm : Transaction.readMany Output.fromBuffer w.outputs.length _ with ⟨r, s⟩
      rw [hm] at hos
      simp only at hos
      subst hos
      rw [Rd.bind_err hm]
  · right
    refine ⟨.inl hci, ?_⟩
    rcases hm : Transaction.readMany (Input.fromBuffer .generic) w.inputs.length _ with ⟨r, s⟩
    rw [hm] at his
    simp only at his
    subst his
    rw [Rd.bind_err hm]

/-! ## What was read is a form -/

theorem not_crashes {b : Bytes} {s : Script} (h : Script.fromBytes b = .ok s) : Complete b ∧ ¬ CrashesOn b := by
  obtain ⟨he, _⟩ := encodes_fromBytes h
  refine ⟨⟨_, he⟩, fun hc => ?_⟩
  rw [crashesOn_iff he] at hc
  rcases script_fromBytes _ b he with ⟨hn, _⟩ | ⟨_, hs⟩
  · exact hn hc
  · rw [hs] at h; cases h

theorem input_form_ok {cls : InputClass} {s s' : Bytes} {i : Input} (h : Input.fromBuffer cls s = (.ok i, s')) :
    ∃ w pre, s = pre ++ s' ∧ i.Shows w ∧ (w.Fits ∧ Complete w.script ∧ ¬ CrashesOn w.script) ∧ w.Form pre := by
  unfold Input.fromBuffer at h
  obtain ⟨id, s1, h1, h⟩ := Rd.bind_ok_iff.1 h
  obtain ⟨ix, s2, h2, h⟩ := Rd.bind_ok_iff.1 h
  obtain ⟨n, s3, h3, h⟩ := Rd.bind_ok_iff.1 h
  obtain ⟨sb, s4, h4, h⟩ := Rd.bind_ok_iff.1 h
  obtain ⟨sc, s5, h5, h⟩ := Rd.bind_ok_iff.1 h
  obtain ⟨sq, s6, h6, h⟩ := Rd.bind_ok_iff.1 h
  simp only [Rd.pure_apply, Prod.mk.injEq, Except.ok.injEq] at h
  obtain ⟨rfl, rfl⟩ := h
  simp only [Rd.lift, Prod.mk.injEq] at h5
  obtain ⟨h5, rfl⟩ := h5
  obtain ⟨rfl, l1⟩ := (read_ok_iff _ _ _ _).1 h1
  obtain ⟨rfl, l2⟩ := read_decode h2
  obtain ⟨pre, hpre, rfl⟩ := readVarint_form_ok h3
  obtain ⟨rfl, rfl⟩ := (read_ok_iff _ _ _ _).1 h4
  obtain ⟨rfl, l6⟩ := read_decode h6
  obtain ⟨he, _⟩ := encodes_fromBytes h5
  have hl := countForm_lt hpre
  exact ⟨⟨id, decodeInt ix (bigEndian := false), sb, decodeInt sq (bigEndian := false)⟩,
    id ++ le 4 (decodeInt ix (bigEndian := false)) ++ pre ++ sb ++ le 4 (decodeInt sq (bigEndian := false)),
    by simp, ⟨(hexText_eq _).symm, rfl, he, rfl⟩, ⟨⟨l1, by norm_num at l2 ⊢; omega, hl, by norm_num at l6 ⊢; omega⟩,
      not_crashes h5⟩, pre, hpre, rfl⟩

theorem output_form_ok {s s' : Bytes} {o : Output} (h : Output.fromBuffer s = (.ok o, s')) :
    ∃ w pre, s = pre ++ s' ∧ o.Shows w ∧ (w.Fits ∧ Complete w.script ∧ ¬ CrashesOn w.script) ∧ w.Form pre := by
  unfold Output.fromBuffer at h
  obtain ⟨ix, s2, h2, h⟩ := Rd.bind_ok_iff.1 h
  obtain ⟨n, s3, h3, h⟩ := Rd.bind_ok_iff.1 h
  obtain ⟨sb, s4, h4, h⟩ := Rd.bind_ok_iff.1 h
  obtain ⟨sc, s5, h5, h⟩ := Rd.bind_ok_iff.1 h
  simp only [Rd.lift, Prod.mk.injEq] at h5 h
  obtain ⟨h5, rfl⟩ := h5
  obtain ⟨hcr, hss⟩ := h
  subst hss
  obtain ⟨rfl, l2⟩ := read_decode h2
  obtain ⟨pre, hpre, rfl⟩ := readVarint_form_ok h3
  obtain ⟨rfl, rfl⟩ := (read_ok_iff _ _ _ _).1 h4
  obtain ⟨he, hc⟩ := encodes_fromBytes h5
  obtain ⟨o', ho, ha, hs⟩ := create_of_classify (decodeInt ix (bigEndian := false)) sc hc
  rw [ho] at hcr
  cases hcr
  have hl := countForm_lt hpre
  exact ⟨⟨decodeInt ix (bigEndian := false), sb⟩, le 8 (decodeInt ix (bigEndian := false)) ++ pre ++ sb,
    by simp, ⟨ha, by rw [hs]; exact he⟩, ⟨⟨by norm_num at l2 ⊢; omega, hl⟩, not_crashes h5⟩, pre, hpre, rfl⟩

theorem readMany_form_ok {α β : Type} {f : Rd α} {R : α → β → Prop} {P : β → Prop} {F : β → Bytes → Prop}
    (hf : ∀ s x s', f s = (.ok x, s') → ∃ y pre, s = pre ++ s' ∧ R x y ∧ P y ∧ F y pre) :
    ∀ (n : Nat) (s s' : Bytes) (xs : List α), Transaction.readMany f n s = (.ok xs, s') →
      ∃ ys pre, s = pre ++ s' ∧ List.Forall₂ R xs ys ∧ (∀ y ∈ ys, P y) ∧ Listed F ys pre ∧ ys.length = n
  | 0, s, s', xs, h => by
    simp only [Transaction.readMany, Rd.pure_apply, Prod.mk.injEq, Except.ok.injEq] at h
    obtain ⟨rfl, rfl⟩ := h
    exact ⟨[], [], rfl, .nil, by simp, .nil, rfl⟩
  | n + 1, s, s', xs, h => by
    obtain ⟨x, s1, h1, h⟩ := Rd.bind_ok_iff.1 h
    obtain ⟨xs', s2, h2, h⟩ := Rd.bind_ok_iff.1 h
    simp only [Rd.pure_apply, Prod.mk.injEq, Except.ok.injEq] at h
    obtain ⟨rfl, rfl⟩ := h
    obtain ⟨y, pre, rfl, hr, hp, hs⟩ := hf _ _ _ h1
    obtain ⟨ys, pre', rfl, hrs, hps, hss, rfl⟩ := readMany_form_ok hf n _ _ _ h2
    refine ⟨y :: ys, pre ++ pre', by simp, .cons hr hrs, ?_, .cons hs hss, rfl⟩
    intro z hz
    rcases List.mem_cons.1 hz with rfl | hz
    · exact hp
    · exact hps z hz

theorem tx_form_ok {s s' : Bytes} {t : Transaction} (h : Transaction.fromBuffer s = (.ok t, s')) :
    ∃ w pre, s = pre ++ s' ∧ t.Shows w ∧ w.Fits ∧ w.inputs ≠ [] ∧ w.outputs ≠ [] ∧
      (∀ i ∈ w.inputs, Complete i.script ∧ ¬ CrashesOn i.script) ∧
      (∀ o ∈ w.outputs, Complete o.script ∧ ¬ CrashesOn o.script) ∧ w.Form pre := by
  unfold Transaction.fromBuffer at h
  obtain ⟨ve, s1, h1, h⟩ := Rd.bind_ok_iff.1 h
  obtain ⟨n, s2, h2, h⟩ := Rd.bind_ok_iff.1 h
  obtain ⟨n', s3, h3, h⟩ := Rd.bind_ok_iff.1 h
  obtain ⟨is, s4, h4, h⟩ := Rd.bind_ok_iff.1 h
  obtain ⟨m, s5, h5, h⟩ := Rd.bind_ok_iff.1 h
  obtain ⟨m', s6, h6, h⟩ := Rd.bind_ok_iff.1 h
  obtain ⟨os, s7, h7, h⟩ := Rd.bind_ok_iff.1 h
  obtain ⟨lo, s8, h8, h9⟩ := Rd.bind_ok_iff.1 h
  clear h
  have pr : ∀ a b c d, Rd.lift (Transaction.pyRange a) c = (.ok b, d) → a = b ∧ c = d ∧ a < 2 ^ 63 := by
    intro a b c d h
    simp only [Rd.lift, Transaction.pyRange, Prod.mk.injEq] at h
    obtain ⟨h, rfl⟩ := h
    split at h
    · next hl => cases h; exact ⟨rfl, rfl, hl⟩
    · cases h
  obtain ⟨rfl, rfl, l3⟩ := pr _ _ _ _ h3
  obtain ⟨rfl, rfl, l6⟩ := pr _ _ _ _ h6
  simp only [Rd.lift, Prod.mk.injEq] at h9
  obtain ⟨hnew, hss⟩ := h9
  subst hss
  obtain ⟨rfl, l1⟩ := read_decode h1
  obtain ⟨p2, f2, rfl⟩ := readVarint_form_ok h2
  obtain ⟨wi, p4, rfl, r4, f4, sh4, rfl⟩ := readMany_form_ok (R := Input.Shows)
    (P := fun w => w.Fits ∧ Complete w.script ∧ ¬ CrashesOn w.script) (F := WireIn.Form)
    (fun s x s' h => input_form_ok h) _ _ _ _ h4
  obtain ⟨p5, f5, rfl⟩ := readVarint_form_ok h5
  obtain ⟨wo, p7, rfl, r7, f7, sh7, rfl⟩ := readMany_form_ok (R := Output.Shows)
    (P := fun w => w.Fits ∧ Complete w.script ∧ ¬ CrashesOn w.script) (F := WireOut.Form)
    (fun s x s' h => output_form_ok h) _ _ _ _ h7
  obtain ⟨rfl, l8⟩ := read_decode h8
  have hi : is ≠ [] := by
    rintro rfl; cases hnew
  have ho : os ≠ [] := by
    rintro rfl
    unfold Transaction.new at hnew
    rw [if_neg (by simpa using hi), mapM_some] at hnew
    cases hnew
  rw [new_some is os _ _ hi ho ⟨by omega, by norm_num at l8 ⊢; omega⟩] at hnew
  cases hnew
  refine ⟨⟨decodeInt ve (bigEndian := false), wi, wo, decodeInt lo (bigEndian := false)⟩,
    le 4 (decodeInt ve (bigEndian := false)) ++ p2 ++ p4 ++ p5 ++ p7 ++ le 4 (decodeInt lo (bigEndian := false)),
    by simp, ⟨rfl, r4, r7, rfl⟩, ⟨by norm_num at l1 ⊢; omega, by norm_num at l8 ⊢; omega, fun i hm => (f4 i hm).1,
      fun i hm => (f7 i hm).1, l3, l6⟩, ?_, ?_, fun i hm => (f4 i hm).2, fun i hm => (f7 i hm).2,
    p2, p4, p5, p7, f2, sh4, f5, sh7, rfl⟩
  · rintro rfl; exact hi (List.length_eq_zero_iff.1 r4.length_eq)
  · rintro rfl; exact ho (List.length_eq_zero_iff.1 r7.length_eq)

/-! ## Truncated strings -/

/-- A reader that consumes a part of the buffer, whatever comes after it, and asks for more if that part is cut short. -/
def Rd.Eager {α : Type} (f : Rd α) : Prop := ∀ s a s', f s = (.ok a, s') → ∃ c, s = c ++ s' ∧
  (∀ r, f (c ++ r) = (.ok a, r)) ∧ ∀ p, p <+: c → p ≠ c → ∃ r q, (f p).1 = .error (.insufficientData r q) ∧ r < q

theorem eager_bind {α β : Type} {f : Rd α} {g : α → Rd β} (hf : f.Eager) (hg : ∀ a, (g a).Eager) :
    (Rd.bind f g).Eager := by
  intro s b s' h
  obtain ⟨a, s1, h1, h2⟩ := Rd.bind_ok_iff.1 h
  obtain ⟨c, rfl, hc, hp⟩ := hf _ _ _ h1
  obtain ⟨d, rfl, hd, hq⟩ := hg a _ _ _ h2
  refine ⟨c ++ d, by simp, fun r => ?_, fun p hpre hne => ?_⟩
  · rw [List.append_assoc, Rd.bind_ok (hc _)]; exact hd r
  · by_cases hcp : c <+: p
    · obtain ⟨e, rfl⟩ := hcp
      rw [Rd.bind_ok (hc e)]
      exact hq e ((List.prefix_append_right_inj c).1 hpre) (fun he => hne (by rw [he]))
    · have hpc : p <+: c := (List.prefix_or_prefix_of_prefix hpre (List.prefix_append c d)).resolve_right hcp
      obtain ⟨r, q, he, hlt⟩ := hp p hpc (fun h => hcp (h ▸ List.prefix_refl _))
      refine ⟨r, q, ?_, hlt⟩
      rcases hm : f p with ⟨x, y⟩
      rw [hm] at he
      simp only at he
      subst he
      rw [Rd.bind_err hm]

theorem eager_read (n : Nat) : (Buffer.read n).Eager := by
  intro s b s' h
  obtain ⟨rfl, hl⟩ := (read_ok_iff _ _ _ _).1 h
  refine ⟨b, rfl, fun r => read_append' n b r hl, fun p hp hne => ?_⟩
  have : p.length < n := by
    have := hp.length_le
    rcases Nat.lt_or_ge p.length n with h | h
    · exact h
    · exact absurd (hp.eq_of_length (by omega)) hne
  rw [read_err n p this]
  exact ⟨_, _, rfl, this⟩

theorem eager_lift {α : Type} (x : Except Err α) : (Rd.lift x).Eager := by
  intro s b s' h
  simp only [Rd.lift, Prod.mk.injEq] at h
  obtain ⟨rfl, rfl⟩ := h
  exact ⟨[], rfl, fun r => rfl, fun p hp hne => absurd (List.prefix_nil.1 hp) hne⟩

theorem eager_pure {α : Type} (a : α) : (Rd.pure a).Eager := eager_lift (.ok a)

theorem eager_readVarint : Buffer.readVarint.Eager := by
  unfold Buffer.readVarint
  refine eager_bind (eager_read 1) fun b => ?_
  simp only []
  split
  · exact eager_pure _
  · split
    · exact eager_bind (eager_read 2) fun _ => eager_pure _
    · split
      · exact eager_bind (eager_read 4) fun _ => eager_pure _
      · exact eager_bind (eager_read 8) fun _ => eager_pure _

theorem eager_input (c : InputClass) : (Input.fromBuffer c).Eager :=
  eager_bind (eager_read _) fun _ => eager_bind (eager_read _) fun _ => eager_bind eager_readVarint fun _ =>
    eager_bind (eager_read _) fun _ => eager_bind (eager_lift _) fun _ => eager_bind (eager_read _) fun _ =>
      eager_pure _

theorem eager_output : Output.fromBuffer.Eager :=
  eager_bind (eager_read _) fun _ => eager_bind eager_readVarint fun _ =>
    eager_bind (eager_read _) fun _ => eager_bind (eager_lift _) fun _ => eager_lift _

theorem eager_readMany {α : Type} {f : Rd α} (hf : f.Eager) : ∀ n, (Transaction.readMany f n).Eager
  | 0 => eager_pure _
  | n + 1 => eager_bind hf fun _ => eager_bind (eager_readMany hf n) fun _ => eager_pure _

theorem eager_tx : Transaction.fromBuffer.Eager :=
  eager_bind (eager_read _) fun _ => eager_bind eager_readVarint fun _ => eager_bind (eager_lift _) fun _ =>
    eager_bind (eager_readMany (eager_input _) _) fun _ => eager_bind eager_readVarint fun _ =>
      eager_bind (eager_lift _) fun _ => eager_bind (eager_readMany eager_output _) fun _ =>
        eager_bind (eager_read _) fun _ => eager_lift _

end Bitforge
