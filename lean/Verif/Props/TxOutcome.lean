import Verif.Props.ScriptOutcome
import Verif.Props.CodecOutcome

/-! # C130: what inputs, outputs and transactions are made and read as, in every case -/

namespace Bitforge.Txs
open Spec Scripts

/-! ## The outcomes -/

/-- The class of the output that pays to a script of this class. -/
inductive PaidBy : ScriptClass → OutputClass → Prop
  | pubkey : PaidBy .payToPubkeyOut .address
  | script : PaidBy .payToScriptOut .script
  | data : PaidBy .opReturnOut .data
  | other {c} : c ≠ .payToPubkeyOut → c ≠ .payToScriptOut → c ≠ .opReturnOut → PaidBy c .generic

/-- `Output.create`: the class that the script was declared to have does not matter. -/
inductive OutputMade (amount : Int) (s : Script) : Except Err Output → Prop
  | error {e} : Classified s.instructions (.error e) → OutputMade amount s (.error e)
  | output {s' c} : Classified s.instructions (.ok s') → PaidBy s'.cls c → OutputMade amount s (.ok ⟨c, amount, s'⟩)

/-- `Input.create`: it only makes inputs of scripts that spend. -/
inductive InputMade (t : Text) (n : Int) (s : Script) (q : Int) : Except Err Input → Prop
  | error {e} : Classified s.instructions (.error e) → InputMade t n s q (.error e)
  | address {s'} : Classified s.instructions (.ok s') → s'.cls = .payToPubkeyIn → InputMade t n s q (.ok ⟨.address, t, n, s', q⟩)
  | script {s'} : Classified s.instructions (.ok s') → s'.cls = .payToScriptIn → InputMade t n s q (.ok ⟨.script, t, n, s', q⟩)
  | other {s'} : Classified s.instructions (.ok s') → s'.cls ≠ .payToPubkeyIn → s'.cls ≠ .payToScriptIn →
      InputMade t n s q (.error .nameError)

/-- `Transaction.__new__`: the first of the five checks that fails decides. -/
inductive TxMade (is : List (Option Input)) (os : List (Option Output)) (l v : Int) : Except Err Transaction → Prop
  | noInputs : is = [] → TxMade is os l v (.error .txNoInputs)
  | notAnInput : none ∈ is → TxMade is os l v (.error .txNotAnInput)
  | noOutputs {is' : List Input} : is = is'.map some → is ≠ [] → os = [] → TxMade is os l v (.error .txNoOutputs)
  | notAnOutput {is' : List Input} : is = is'.map some → is ≠ [] → none ∈ os → TxMade is os l v (.error .txNotAnOutput)
  | lockTime {is' : List Input} {os' : List Output} : is = is'.map some → is ≠ [] → os = os'.map some → os ≠ [] → l < 0 ∨ 2 ^ 32 ≤ l →
      TxMade is os l v (.error .txInvalidLockTime)
  | made {is' : List Input} {os' : List Output} : is = is'.map some → is ≠ [] → os = os'.map some → os ≠ [] → 0 ≤ l → l < 2 ^ 32 →
      TxMade is os l v (.ok ⟨is', os', l, v⟩)

/-- The input that is written like this, and the output. -/
inductive ReadIn (cls : InputClass) (w : WireIn) : Input → Prop
  | mk {s} : BytesRead w.script (.ok s) → ReadIn cls w ⟨cls, hexText w.txid.reverse, w.index, s, w.sequence⟩
inductive ReadOut (w : WireOut) : Output → Prop
  | mk {s c} : BytesRead w.script (.ok s) → PaidBy s.cls c → ReadOut w ⟨c, w.amount, s⟩

/-- `Input.from_bytes`: what follows the input is dropped. -/
inductive InputRead (cls : InputClass) (b : Bytes) : Except Err Input → Prop
  | refused {e} : NoInput b e → InputRead cls b (.error e)
  | input {w : WireIn} {p rest i} : w.Fits → w.Form p → b = p ++ rest → ReadIn cls w i → InputRead cls b (.ok i)

/-- `Output.from_bytes`: what follows the output is dropped. -/
inductive OutputRead (b : Bytes) : Except Err Output → Prop
  | refused {e} : NoOutput b e → OutputRead b (.error e)
  | output {w : WireOut} {p rest o} : w.Fits → w.Form p → b = p ++ rest → ReadOut w o → OutputRead b (.ok o)

/-- `Transaction.from_bytes`: what follows the transaction is dropped. -/
inductive TxRead (b : Bytes) : Except Err Transaction → Prop
  | refused {e} : NoTx b e → TxRead b (.error e)
  | transaction {w : WireTx} {p rest is os} : w.Fits → w.inputs ≠ [] → w.outputs ≠ [] → w.Form p → b = p ++ rest →
      List.Forall₂ (ReadIn .generic) w.inputs is → List.Forall₂ ReadOut w.outputs os →
      TxRead b (.ok ⟨is, os, w.lockTime, w.version⟩)

/-! ## Makers -/

theorem paid_total (c : ScriptClass) : ∃ k, PaidBy c k := by
  by_cases h1 : c = .payToPubkeyOut
  · subst h1; exact ⟨_, .pubkey⟩
  by_cases h2 : c = .payToScriptOut
  · subst h2; exact ⟨_, .script⟩
  by_cases h3 : c = .opReturnOut
  · subst h3; exact ⟨_, .data⟩
  exact ⟨_, .other h1 h2 h3⟩

theorem classified_ok {is : List Instruction} {s : Script} (h : Classified is (.ok s)) : s.instructions = is := by
  cases h; rfl

theorem create_ok {n : Int} {s s' : Script} {c : OutputClass} (h : Classified s.instructions (.ok s')) (hc : PaidBy s'.cls c) :
    Output.create n s = .ok ⟨c, n, s'⟩ := by
  unfold Output.create
  rw [(C129_create _ _).2 h]
  simp only
  congr
  generalize s'.cls = k at hc
  cases hc with
  | pubkey => rfl
  | script => rfl
  | data => rfl
  | other h1 h2 h3 =>
    cases k <;> first
      | rfl
      | exact absurd rfl h1
      | exact absurd rfl h2
      | exact absurd rfl h3

/-- C130. `Output.create`. -/
theorem C130_output_create (n : Int) (s : Script) (r : Except Err Output) : Output.create n s = r ↔ OutputMade n s r := by
  refine graph (f := Output.create n) ?_ ?_ s r
  · intro s r h
    cases h with
    | error h => unfold Output.create; rw [(C129_create _ _).2 h]
    | output h hc => exact create_ok h hc
  · intro s
    cases h : Script.create s.instructions with
    | error e => exact ⟨_, .error ((C129_create _ _).1 h)⟩
    | ok s' =>
      obtain ⟨c, hc⟩ := paid_total s'.cls
      exact ⟨_, .output ((C129_create _ _).1 h) hc⟩

/-- C130. `Input.create`. -/
theorem C130_input_create (t : Text) (n : Int) (s : Script) (q : Int) (r : Except Err Input) :
    Input.create t n s q = r ↔ InputMade t n s q r := by
  refine graph (f := fun s => Input.create t n s q) (R := fun s r => InputMade t n s q r) ?_ ?_ s r
  · intro s r h
    unfold Input.create
    cases h with
    | error h => rw [(C129_create _ _).2 h]
    | address h hc => rw [(C129_create _ _).2 h]; simp only; rw [if_pos hc]
    | script h hc => rw [(C129_create _ _).2 h]; simp only; rw [if_neg (by rw [hc]; decide), if_pos hc]
    | other h h1 h2 => rw [(C129_create _ _).2 h]; simp only; rw [if_neg h1, if_neg h2]
  · intro s
    cases h : Script.create s.instructions with
    | error e => exact ⟨_, .error ((C129_create _ _).1 h)⟩
    | ok s' =>
      have h := (C129_create _ _).1 h
      by_cases h1 : s'.cls = .payToPubkeyIn
      · exact ⟨_, .address h h1⟩
      by_cases h2 : s'.cls = .payToScriptIn
      · exact ⟨_, .script h h2⟩
      exact ⟨_, .other h h1 h2⟩

theorem mapM_cases {α : Type} : ∀ xs : List (Option α), (∃ ys, xs = ys.map some ∧ xs.mapM id = some ys) ∨
    (Option.none ∈ xs ∧ xs.mapM id = Option.none)
  | [] => .inl ⟨[], rfl, rfl⟩
  | Option.none :: xs => .inr ⟨by simp, by simp⟩
  | some x :: xs => by
    rcases mapM_cases xs with ⟨ys, rfl, h⟩ | ⟨h, h'⟩
    · exact .inl ⟨x :: ys, rfl, by rw [List.mapM_cons, h]; rfl⟩
    · exact .inr ⟨by simp [h], by rw [List.mapM_cons, h']; rfl⟩

theorem mapM_map {α : Type} (ys : List α) : (ys.map some).mapM id = some ys := by
  induction ys with
  | nil => rfl
  | cons y ys ih => rw [List.map_cons, List.mapM_cons, ih]; rfl

theorem mapM_mem {α : Type} {xs : List (Option α)} (h : Option.none ∈ xs) : xs.mapM id = Option.none := by
  rcases mapM_cases xs with ⟨ys, rfl, _⟩ | ⟨_, h'⟩
  · simp at h
  · exact h'

/-- C130. `Transaction.__new__`. -/
theorem C130_new (is : List (Option Input)) (os : List (Option Output)) (l v : Int) (r : Except Err Transaction) :
    Transaction.new is os l v = r ↔ TxMade is os l v r := by
  refine graph (f := fun is => Transaction.new is os l v) (R := fun is r => TxMade is os l v r) ?_ ?_ is r
  · intro is r h
    unfold Transaction.new
    have len : ∀ {α : Type} {xs : List α}, xs ≠ [] → ¬ xs.length = 0 := fun h h' => h (List.length_eq_zero_iff.1 h')
    cases h with
    | noInputs h => rw [if_pos (by rw [h]; rfl)]
    | notAnInput h => rw [if_neg (len (List.ne_nil_of_mem h)), mapM_mem h]
    | noOutputs h1 h2 h3 =>
      rw [if_neg (len h2), h1, mapM_map]
      simp only
      rw [if_pos (by rw [h3]; rfl)]
    | notAnOutput h1 h2 h3 =>
      rw [if_neg (len h2), h1, mapM_map]
      simp only
      rw [if_neg (len (List.ne_nil_of_mem h3)), mapM_mem h3]
    | lockTime h1 h2 h3 h4 h5 =>
      rw [if_neg (len h2), h1, mapM_map]
      simp only
      rw [if_neg (len h4), h3, mapM_map]
      simp only
      rw [if_pos (by omega)]
    | made h1 h2 h3 h4 h5 h6 =>
      rw [if_neg (len h2), h1, mapM_map]
      simp only
      rw [if_neg (len h4), h3, mapM_map]
      simp only
      rw [if_neg (by omega)]
  · intro is
    by_cases h2 : is = []
    · exact ⟨_, .noInputs h2⟩
    rcases mapM_cases is with ⟨is', h1, _⟩ | ⟨h, _⟩
    · by_cases h4 : os = []
      · exact ⟨_, .noOutputs h1 h2 h4⟩
      rcases mapM_cases os with ⟨os', h3, _⟩ | ⟨h, _⟩
      · by_cases h : 0 ≤ l ∧ l < 2 ^ 32
        · exact ⟨_, .made h1 h2 h3 h4 h.1 h.2⟩
        · exact ⟨_, .lockTime h1 h2 h3 h4 (by omega)⟩
      · exact ⟨_, .notAnOutput h1 h2 h⟩
    · exact ⟨_, .notAnInput h⟩

/-- C130. `Transaction.replace_inputs`, `Input.replace_script` and `Input.remove_script`. -/
theorem C130_replace (t : Transaction) (is : List Input) (r : Except Err Transaction) (i : Input) (s : Script) :
    (t.replaceInputs is = r ↔ TxMade (is.map some) (t.outputs.map some) t.lockTime t.version r) ∧
    i.replaceScript s = ⟨.generic, i.txId, i.txoIndex, s, i.seqNumber⟩ ∧
    i.removeScript = ⟨.generic, i.txId, i.txoIndex, ⟨.generic, []⟩, i.seqNumber⟩ :=
  ⟨C130_new _ _ _ _ r, rfl, rfl⟩

/-! ## Readers -/

theorem input_at {cls : InputClass} {w : WireIn} {b : Bytes} {i : Input} (hw : w.Fits) (hb : w.Form b) (hi : ReadIn cls w i)
    (rest : Bytes) : Input.fromBuffer cls (b ++ rest) = (.ok i, rest) := by
  obtain ⟨h1, h2, h3, h4⟩ := hw
  obtain ⟨c, hc, rfl⟩ := hb
  cases hi with
  | mk hs =>
    unfold Input.fromBuffer
    rw [List.append_assoc, List.append_assoc, List.append_assoc, List.append_assoc,
      Rd.bind_ok (read_append' 32 _ _ h1), Rd.bind_ok (read_le 4 _ _), Rd.bind_ok (readVarint_form hc _),
      Rd.bind_ok (read_append _ _), decodeInt_le 4 _ (by omega), (C129_bytes _ _).2 hs, lift_bind,
      Rd.bind_ok (read_le 4 _ _), decodeInt_le 4 _ (by omega), ← hexText_eq]
    rfl

/-- What was read was classified. -/
theorem read_classified {b : Bytes} {s : Script} (h : BytesRead b (.ok s)) : Classified s.instructions (.ok s) := by
  cases h with
  | script _ h2 => rw [classified_ok h2]; exact h2

theorem output_at {w : WireOut} {b : Bytes} {o : Output} (hw : w.Fits) (hb : w.Form b) (ho : ReadOut w o) (rest : Bytes) :
    Output.fromBuffer (b ++ rest) = (.ok o, rest) := by
  obtain ⟨h1, h2⟩ := hw
  obtain ⟨c, hc, rfl⟩ := hb
  cases ho with
  | mk hs hk =>
    unfold Output.fromBuffer
    rw [List.append_assoc, List.append_assoc, Rd.bind_ok (read_le 8 _ _), Rd.bind_ok (readVarint_form hc _),
      Rd.bind_ok (read_append _ _), decodeInt_le 8 _ (by omega), (C129_bytes _ _).2 hs, lift_bind]
    show (Output.create _ _, _) = _
    rw [create_ok (read_classified hs) hk]

theorem script_of {b : Bytes} (h : Complete b ∧ ¬ CrashesOn b) : ∃ s, BytesRead b (.ok s) := by
  obtain ⟨s, hs⟩ := (fromBytes_ok_iff b).2 ((legible_iff b).1 h)
  exact ⟨s, (C129_bytes _ _).1 hs⟩

/-- C130. The bytes from which an input is read, the input, and what is left. -/
theorem C130_input (cls : InputClass) (s s' : Bytes) (i : Input) : Input.fromBuffer cls s = (.ok i, s') ↔
    ∃ (w : WireIn) (p : Bytes), w.Fits ∧ w.Form p ∧ s = p ++ s' ∧ ReadIn cls w i := by
  constructor
  · intro h
    obtain ⟨w, p, rfl, -, ⟨hw, hs⟩, hf⟩ := input_form_ok h
    obtain ⟨sc, hsc⟩ := script_of hs
    have h' := input_at (cls := cls) hw hf (.mk hsc) s'
    rw [h] at h'
    simp only [Prod.mk.injEq, Except.ok.injEq, and_true] at h'
    exact ⟨w, p, hw, hf, rfl, h' ▸ .mk hsc⟩
  · rintro ⟨w, p, hw, hf, rfl, hi⟩
    exact input_at hw hf hi s'

/-- C130. The bytes from which an output is read, the output, and what is left. -/
theorem C130_output (s s' : Bytes) (o : Output) : Output.fromBuffer s = (.ok o, s') ↔
    ∃ (w : WireOut) (p : Bytes), w.Fits ∧ w.Form p ∧ s = p ++ s' ∧ ReadOut w o := by
  constructor
  · intro h
    obtain ⟨w, p, rfl, -, ⟨hw, hs⟩, hf⟩ := output_form_ok h
    obtain ⟨sc, hsc⟩ := script_of hs
    obtain ⟨c, hc⟩ := paid_total sc.cls
    have h' := output_at hw hf (.mk hsc hc) s'
    rw [h] at h'
    simp only [Prod.mk.injEq, Except.ok.injEq, and_true] at h'
    exact ⟨w, p, hw, hf, rfl, h' ▸ .mk hsc hc⟩
  · rintro ⟨w, p, hw, hf, rfl, ho⟩
    exact output_at hw hf ho s'

/-- C130. `Input.from_bytes`, and `Input.from_hex`, of any class. -/
theorem C130_input_bytes (cls : InputClass) (b : Bytes) (r : Except Err Input) :
    Input.fromBytes b cls = r ↔ InputRead cls b r := by
  refine graph (f := fun b => Input.fromBytes b cls) ?_ ?_ b r
  · intro b r h
    cases h with
    | refused h => exact (C117_input _ _ _).2 h
    | input h1 h2 h3 h4 => subst h3; unfold Input.fromBytes; rw [input_at h1 h2 h4]
  · intro b
    rcases h : Input.fromBuffer cls b with ⟨r, s⟩
    cases r with
    | error e => exact ⟨_, .refused ((C117_input b cls e).1 (by unfold Input.fromBytes; rw [h]))⟩
    | ok i =>
      obtain ⟨w, p, h1, h2, h3, h4⟩ := (C130_input _ _ _ _).1 h
      exact ⟨_, .input h1 h2 h3 h4⟩

/-- C130. `Output.from_bytes`. -/
theorem C130_output_bytes (b : Bytes) (r : Except Err Output) : Output.fromBytes b = r ↔ OutputRead b r := by
  refine graph (f := Output.fromBytes) ?_ ?_ b r
  · intro b r h
    cases h with
    | refused h => exact (C117_output _ _).2 h
    | output h1 h2 h3 h4 => subst h3; unfold Output.fromBytes; rw [output_at h1 h2 h4]
  · intro b
    rcases h : Output.fromBuffer b with ⟨r, s⟩
    cases r with
    | error e => exact ⟨_, .refused ((C117_output b e).1 (by unfold Output.fromBytes; rw [h]))⟩
    | ok i =>
      obtain ⟨w, p, h1, h2, h3, h4⟩ := (C130_output _ _ _).1 h
      exact ⟨_, .output h1 h2 h3 h4⟩

theorem many_at {α β : Type} {f : Rd α} {F : β → Bytes → Prop} {P : β → Prop} {V : β → α → Prop}
    (hf : ∀ w b x, P w → F w b → V w x → ∀ rest, f (b ++ rest) = (.ok x, rest)) {ws : List β} {bs : Bytes} (h : Listed F ws bs) :
    ∀ {xs : List α}, (∀ w ∈ ws, P w) → List.Forall₂ V ws xs → ∀ rest,
      Transaction.readMany f ws.length (bs ++ rest) = (.ok xs, rest) := by
  induction h with
  | nil => intro xs _ hv rest; cases hv; rfl
  | cons hy _ ih =>
    intro xs hp hv rest
    cases hv with
    | cons hv1 hv2 =>
      simp only [List.append_assoc, List.length_cons, Transaction.readMany]
      rw [Rd.bind_ok (hf _ _ _ (hp _ (by simp)) hy hv1 _), Rd.bind_ok (ih (fun z hz => hp z (by simp [hz])) hv2 rest)]
      rfl

theorem tx_at {w : WireTx} {b : Bytes} {is : List Input} {os : List Output} (hw : w.Fits) (hi : w.inputs ≠ []) (ho : w.outputs ≠ [])
    (hb : w.Form b) (his : List.Forall₂ (ReadIn .generic) w.inputs is) (hos : List.Forall₂ ReadOut w.outputs os) (rest : Bytes) :
    Transaction.fromBuffer (b ++ rest) = (.ok ⟨is, os, w.lockTime, w.version⟩, rest) := by
  obtain ⟨h1, h2, h3, h4, h5, h6⟩ := hw
  obtain ⟨c, bi, d, bo, hc, hli, hd, hlo, rfl⟩ := hb
  unfold Transaction.fromBuffer
  rw [List.append_assoc, List.append_assoc, List.append_assoc, List.append_assoc, List.append_assoc,
    Rd.bind_ok (read_le 4 _ _), Rd.bind_ok (readVarint_form hc _), range_ok h5, lift_bind,
    decodeInt_le 4 _ (by norm_num; omega),
    Rd.bind_ok (many_at (fun w b x hp hb hx rest => input_at hp hb hx rest) hli h3 his _),
    Rd.bind_ok (readVarint_form hd _), range_ok h6, lift_bind,
    Rd.bind_ok (many_at (fun w b x hp hb hx rest => output_at hp hb hx rest) hlo h4 hos _),
    Rd.bind_ok (read_le 4 _ _), decodeInt_le 4 _ (by norm_num; omega)]
  show (Transaction.new _ _ _ _, rest) = _
  rw [new_some is os _ _ (by
      rintro rfl; exact hi (List.length_eq_zero_iff.1 his.length_eq)) (by
      rintro rfl; exact ho (List.length_eq_zero_iff.1 hos.length_eq))
    (by omega)]

theorem all_read {α β : Type} {V : α → β → Prop} : ∀ {xs : List α}, (∀ x ∈ xs, ∃ y, V x y) → ∃ ys, List.Forall₂ V xs ys
  | [], _ => ⟨[], .nil⟩
  | x :: xs, h => by
    obtain ⟨y, hy⟩ := h x (by simp)
    obtain ⟨ys, hys⟩ := all_read (xs := xs) fun z hz => h z (by simp [hz])
    exact ⟨y :: ys, .cons hy hys⟩

/-- C130. The bytes from which a transaction is read, the transaction, and what is left. -/
theorem C130_transaction (s s' : Bytes) (t : Transaction) : Transaction.fromBuffer s = (.ok t, s') ↔
    ∃ (w : WireTx) (p : Bytes), w.Fits ∧ w.inputs ≠ [] ∧ w.outputs ≠ [] ∧ w.Form p ∧ s = p ++ s' ∧
      List.Forall₂ (ReadIn .generic) w.inputs t.inputs ∧ List.Forall₂ ReadOut w.outputs t.outputs ∧ t.lockTime = w.lockTime ∧
      t.version = w.version := by
  constructor
  · intro h
    obtain ⟨w, p, rfl, -, hw, hi, ho, hsi, hso, hf⟩ := tx_form_ok h
    obtain ⟨is, his⟩ := all_read (V := ReadIn .generic) (xs := w.inputs) fun i hi => by
      obtain ⟨sc, hsc⟩ := script_of (hsi i hi)
      exact ⟨_, .mk hsc⟩
    obtain ⟨os, hos⟩ := all_read (V := ReadOut) (xs := w.outputs) fun o ho => by
      obtain ⟨sc, hsc⟩ := script_of (hso o ho)
      obtain ⟨c, hc⟩ := paid_total sc.cls
      exact ⟨_, .mk hsc hc⟩
    have h' := tx_at hw hi ho hf his hos s'
    rw [h] at h'
    simp only [Prod.mk.injEq, Except.ok.injEq, and_true] at h'
    subst h'
    exact ⟨w, p, hw, hi, ho, hf, rfl, his, hos, rfl, rfl⟩
  · rintro ⟨w, p, hw, hi, ho, hf, rfl, his, hos, hl, hv⟩
    rw [tx_at hw hi ho hf his hos s']
    cases t
    simp only at hl hv
    rw [hl, hv]

/-- C130. `Transaction.from_bytes`. -/
theorem C130_transaction_bytes (b : Bytes) (r : Except Err Transaction) : Transaction.fromBytes b = r ↔ TxRead b r := by
  refine graph (f := Transaction.fromBytes) ?_ ?_ b r
  · intro b r h
    cases h with
    | refused h => exact (C117_transaction _ _).2 h
    | transaction h1 h2 h3 h4 h5 h6 h7 => subst h5; unfold Transaction.fromBytes; rw [tx_at h1 h2 h3 h4 h6 h7]
  · intro b
    rcases h : Transaction.fromBuffer b with ⟨r, s⟩
    cases r with
    | error e => exact ⟨_, .refused ((C117_transaction b e).1 (by unfold Transaction.fromBytes; rw [h]))⟩
    | ok t =>
      obtain ⟨w, p, h1, h2, h3, h4, h5, h6, h7, h8, h9⟩ := (C130_transaction _ _ _).1 h
      exact ⟨_, .transaction h1 h2 h3 h4 h5 h6 h7⟩

/-- C130. The hexadecimal forms of the three. -/
theorem C130_hex (cls : InputClass) (t : Text) (i : Except Err Input) (o : Except Err Output) (x : Except Err Transaction) :
    (Input.fromHex t cls = i ↔ HexOutcome .invalidHex (InputRead cls) t i) ∧
    (Output.fromHex t = o ↔ HexOutcome .invalidHex OutputRead t o) ∧
    (Transaction.fromHex t = x ↔ HexOutcome .invalidHex TxRead t x) := by
  refine ⟨hex_outcome (f := fun t => Input.fromHex t cls) (g := fun b => Input.fromBytes b cls) (C130_input_bytes cls)
      (fun t => ?_) t i,
    hex_outcome (f := Output.fromHex) (g := Output.fromBytes) C130_output_bytes (fun t => ?_) t o,
    hex_outcome (f := Transaction.fromHex) (g := Transaction.fromBytes) C130_transaction_bytes (fun t => ?_) t x⟩
  · unfold Input.fromHex
    cases decodeHex t with
    | ok b => rfl
    | error e => cases e <;> rfl
  · unfold Output.fromHex
    cases decodeHex t with
    | ok b => rfl
    | error e => cases e <;> rfl
  · unfold Transaction.fromHex
    cases decodeHex t with
    | ok b => rfl
    | error e => cases e <;> rfl

/-! ## Examples -/

/-- An output of 5 satoshi that pays to the script `OP_RETURN 00`, declared as an ordinary script. -/
example : OutputMade 5 ⟨.generic, [⟨⟨0x6a⟩, none⟩, ⟨⟨1⟩, some ⟨.str, [0]⟩⟩]⟩
    (.ok ⟨.data, 5, ⟨.opReturnOut, [⟨⟨0x6a⟩, none⟩, ⟨⟨1⟩, some ⟨.str, [0]⟩⟩]⟩⟩) :=
  (C130_output_create _ _ _).1 rfl

/-- An ordinary script cannot be spent from: the class `OpReturnOut` is not imported. -/
example : InputMade [] 0 ⟨.generic, []⟩ 7 (.error .nameError) := (C130_input_create _ _ _ _ _).1 rfl

/-- A transaction of something that is not an input, whatever the outputs. -/
example : TxMade [none] [] (-1) 0 (.error .txNotAnInput) := .notAnInput (by simp)

/-- Nine bytes and a tail: an output of 258 satoshi with an empty script. -/
example : OutputRead ([2, 1, 0, 0, 0, 0, 0, 0, 0] ++ [9, 9]) (.ok ⟨.generic, 258, ⟨.generic, []⟩⟩) :=
  (C130_output_bytes _ _).1 (by decide +kernel)

/-- A transaction with one input and one output. -/
example : ∃ t, TxRead ([1, 0, 0, 0, 1] ++ List.replicate 32 7 ++ [0, 0, 0, 0, 0, 255, 255, 255, 255, 1] ++
    [5, 0, 0, 0, 0, 0, 0, 0, 1, 0x51] ++ [0, 0, 0, 0] ++ [1, 2, 3]) (.ok t) ∧ t.version = 1 ∧ t.inputs.length = 1 ∧
    t.outputs.map (·.amount) = [5] :=
  ⟨⟨[⟨.generic, encodeHex (List.replicate 32 7), 0, ⟨.generic, []⟩, 4294967295⟩], [⟨.generic, 5, ⟨.generic, [⟨⟨0x51⟩, none⟩]⟩⟩], 0, 1⟩,
    (C130_transaction_bytes _ _).1 (by decide +kernel), rfl, rfl, rfl⟩

end Bitforge.Txs
