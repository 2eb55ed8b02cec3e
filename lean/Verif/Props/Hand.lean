import Verif.Props.SignAll
import Verif.Props.Instances
import Verif.Props.Settle
import Verif.Props.ConsensusCases

/-! # C140: transactions handed from signer to signer -/

namespace Bitforge.Hand
open Spec
open Transaction (atIndex pyIndex)

/-- Equal in Python, and with inputs of the same classes. -/
structure Alike (t u : Transaction) : Prop where
  eq : t.eq u = true
  classes : t.inputs.map Input.cls = u.inputs.map Input.cls

/-- Both fail with the same error, or both succeed with transactions that are alike. -/
def SameOutcome (a b : Except Err Transaction) : Prop :=
  (∃ e, a = .error e ∧ b = .error e) ∨ ∃ u v, a = .ok u ∧ b = .ok v ∧ Alike u v

/-- `AddressInput(*input)` and so on: `Input.__new__`, input.py:35-37, with the fields of another input. -/
def as (c : InputClass) (x : Input) : Input := ⟨c, x.txId, x.txoIndex, x.script, x.seqNumber⟩

/-- What the next signer makes of the bytes of a transaction in range: it is read, and its inputs are replaced by inputs with
the same fields and the classes that they had, which the next signer has to be told. -/
def Handed (t r : Transaction) : Prop := t.InRange ∧ ∃ b u, t.toBytes = .ok b ∧ Transaction.fromBytes b = .ok u ∧
  u.replaceInputs (List.zipWith as (t.inputs.map Input.cls) u.inputs) = .ok r

/-- The calls, each by a signer who was handed what the signer before has made. -/
inductive HandedAll (H : Hashes) : List SignCall → Transaction → Transaction → Prop
  | nil {t : Transaction} : HandedAll H [] t t
  | cons {c : SignCall} {cs : List SignCall} {t r v u : Transaction} : Handed t r → c.on H r = .ok v → HandedAll H cs v u →
      HandedAll H (c :: cs) t u

/-! ## Transactions that are alike -/

/-- Inputs that are alike. -/
def InAlike (i j : Input) : Prop := i.cls = j.cls ∧ i.eq j = true

theorem forall₂_and {α : Type} {β : Type} {f : α → β} {R : α → α → Prop} {xs ys : List α} (h : List.Forall₂ R xs ys) :
    xs.map f = ys.map f ↔ List.Forall₂ (fun x y => f x = f y ∧ R x y) xs ys := by
  induction h with
  | nil => simp
  | cons a _ ih => simp [ih, a]

theorem alike_iff (t u : Transaction) : Alike t u ↔ List.Forall₂ InAlike t.inputs u.inputs ∧
    List.Forall₂ (fun i j : Output => i.eq j = true) t.outputs u.outputs ∧ t.lockTime = u.lockTime ∧ t.version = u.version := by
  constructor
  · rintro ⟨h, hc⟩
    obtain ⟨h1, h2⟩ := (tx_eq_iff _ _).1 h
    exact ⟨(forall₂_and h1).1 hc, h2⟩
  · rintro ⟨h1, h2⟩
    have h3 : List.Forall₂ (fun i j : Input => i.eq j = true) t.inputs u.inputs := h1.imp fun _ _ h => h.2
    exact ⟨(tx_eq_iff _ _).2 ⟨h3, h2⟩, (forall₂_and h3).2 h1⟩

theorem inAlike_refl (i : Input) : InAlike i i := ⟨rfl, (input_eq_iff _ _).2 ⟨rfl, rfl, rfl, rfl⟩⟩

theorem inAlike_trans {i j k : Input} (h : InAlike i j) (g : InAlike j k) : InAlike i k := by
  obtain ⟨h1, h2, h3, h4⟩ := (input_eq_iff _ _).1 h.2
  obtain ⟨g1, g2, g3, g4⟩ := (input_eq_iff _ _).1 g.2
  exact ⟨h.1.trans g.1, (input_eq_iff _ _).2 ⟨h1.trans g1, h2.trans g2, h3.trans g3, h4.trans g4⟩⟩

theorem outEq_trans {i j k : Output} (h : i.eq j = true) (g : j.eq k = true) : i.eq k = true := by
  obtain ⟨h1, h2⟩ := (output_eq_iff _ _).1 h
  obtain ⟨g1, g2⟩ := (output_eq_iff _ _).1 g
  exact (output_eq_iff _ _).2 ⟨h1.trans g1, h2.trans g2⟩

theorem forall₂_trans {α : Type} {R : α → α → Prop} (hR : ∀ x y z, R x y → R y z → R x z) {xs ys zs : List α}
    (h : List.Forall₂ R xs ys) (g : List.Forall₂ R ys zs) : List.Forall₂ R xs zs := by
  induction h generalizing zs with
  | nil => exact g
  | cons a _ ih =>
    cases g with
    | cons b g => exact .cons (hR _ _ _ a b) (ih g)

theorem alike_refl (t : Transaction) : Alike t t :=
  (alike_iff _ _).2 ⟨List.forall₂_same.2 fun i _ => inAlike_refl i,
    List.forall₂_same.2 fun _ _ => (output_eq_iff _ _).2 ⟨rfl, rfl⟩, rfl, rfl⟩

theorem alike_trans {t u v : Transaction} (h : Alike t u) (g : Alike u v) : Alike t v := by
  obtain ⟨h1, h2, h3, h4⟩ := (alike_iff _ _).1 h
  obtain ⟨g1, g2, g3, g4⟩ := (alike_iff _ _).1 g
  exact (alike_iff _ _).2 ⟨forall₂_trans (R := InAlike) (fun _ _ _ => inAlike_trans) h1 g1,
    forall₂_trans (R := fun i j : Output => i.eq j = true) (fun _ _ _ => outEq_trans) h2 g2, h3.trans g3, h4.trans g4⟩

theorem instr_bytes {i j : Instruction} (h : i.wire = j.wire) : i.toBytes = j.toBytes := by
  obtain ⟨⟨op⟩, d⟩ := i
  obtain ⟨⟨op'⟩, d'⟩ := j
  simp only [Instruction.wire, Prod.mk.injEq] at h
  obtain ⟨rfl, h⟩ := h
  unfold Instruction.toBytes
  cases d <;> cases d' <;> simp_all

theorem script_bytes {s t : Script} (h : s.wires = t.wires) : s.toBytes = t.toBytes := by
  obtain ⟨_, is⟩ := s
  obtain ⟨_, js⟩ := t
  unfold Script.wires at h
  unfold Script.toBytes
  simp only at h ⊢
  induction is generalizing js with
  | nil =>
    cases js with
    | nil => rfl
    | cons j js => cases h
  | cons i is ih =>
    cases js with
    | nil => cases h
    | cons j js =>
      rw [List.map_cons, List.map_cons, List.cons.injEq] at h
      unfold Script.bytesOf
      rw [instr_bytes h.1, ih js h.2]

theorem input_bytes {i j : Input} (h : i.eq j = true) : i.toBytes = j.toBytes := by
  obtain ⟨h1, h2, h3, h4⟩ := (input_eq_iff _ _).1 h
  unfold Input.toBytes
  rw [script_bytes h3, h1, h2, h4]

theorem output_bytes {i j : Output} (h : i.eq j = true) : i.toBytes = j.toBytes := by
  obtain ⟨h1, h2⟩ := (output_eq_iff _ _).1 h
  unfold Output.toBytes
  rw [script_bytes h2, h1]

theorem writeAll_congr {α : Type} {f : α → Except Err Bytes} {xs ys : List α} (h : List.Forall₂ (fun x y => f x = f y) xs ys)
    (b : Bytes) : Transaction.writeAll f xs b = Transaction.writeAll f ys b := by
  induction h generalizing b with
  | nil => rfl
  | cons a _ ih =>
    unfold Transaction.writeAll
    rw [a]
    split
    · rfl
    · exact ih _

/-- Transactions that are equal in Python are written alike. -/
theorem tx_bytes {t u : Transaction} (h : t.eq u = true) : t.toBytes = u.toBytes := by
  obtain ⟨h1, h2, h3, h4⟩ := (tx_eq_iff _ _).1 h
  unfold Transaction.toBytes
  rw [h3, h4, h1.length_eq, h2.length_eq]
  simp only [writeAll_congr (f := Input.toBytes) (h1.imp fun _ _ h => input_bytes h),
    writeAll_congr (f := Output.toBytes) (h2.imp fun _ _ h => output_bytes h)]

theorem forall₂_get {α β : Type} {R : α → β → Prop} {xs : List α} {ys : List β} (h : List.Forall₂ R xs ys) (n : Nat) :
    (xs[n]? = none ∧ ys[n]? = none) ∨ ∃ x y, xs[n]? = some x ∧ ys[n]? = some y ∧ R x y := by
  induction h generalizing n with
  | nil => simp
  | cons a _ ih =>
    cases n with
    | zero => exact .inr ⟨_, _, rfl, rfl, a⟩
    | succ n => simpa using ih n

theorem atIndex_alike {R : Input → Input → Prop} {f f' g g' : Input → Input} (hf : ∀ x y, R x y → R (f x) (f' y))
    (hg : ∀ x y, R x y → R (g x) (g' y)) (i : Int) {xs ys : List Input} (h : List.Forall₂ R xs ys) (k : Nat) :
    List.Forall₂ R (atIndex f g i k xs) (atIndex f' g' i k ys) := by
  induction h generalizing k with
  | nil => exact .nil
  | cons a _ ih =>
    refine .cons ?_ (ih _)
    split
    · exact hf _ _ a
    · exact hg _ _ a

theorem alike_legal {t u : Transaction} (h : Alike t u) (g : u.Legal) : t.Legal := by
  obtain ⟨h1, h2, h3, _⟩ := (alike_iff _ _).1 h
  obtain ⟨g1, g2, g3⟩ := g
  refine ⟨fun e => g1 ?_, fun e => g2 ?_, by rw [h3]; exact g3⟩
  · have := h1.length_eq
    rw [e] at this
    exact List.length_eq_zero_iff.1 this.symm
  · have := h2.length_eq
    rw [e] at this
    exact List.length_eq_zero_iff.1 this.symm

theorem alike_symm {t u : Transaction} (h : Alike t u) : Alike u t := by
  obtain ⟨h1, h2, h3, h4⟩ := (alike_iff _ _).1 h
  refine (alike_iff _ _).2 ⟨h1.flip.imp ?_, h2.flip.imp ?_, h3.symm, h4.symm⟩
  · intro i j g
    obtain ⟨a, b, c, d⟩ := (input_eq_iff _ _).1 g.2
    exact ⟨g.1.symm, (input_eq_iff _ _).2 ⟨a.symm, b.symm, c.symm, d.symm⟩⟩
  · intro i j g
    obtain ⟨a, b⟩ := (output_eq_iff _ _).1 g
    exact (output_eq_iff _ _).2 ⟨a.symm, b.symm⟩

/-- Replacing the inputs of transactions that are alike. -/
theorem replace_alike {t u : Transaction} (h : Alike t u) {xs ys : List Input} (hx : List.Forall₂ InAlike xs ys) :
    SameOutcome (t.replaceInputs xs) (u.replaceInputs ys) := by
  obtain ⟨h1, h2, h3, h4⟩ := (alike_iff _ _).1 h
  by_cases hl : ys ≠ [] ∧ u.outputs ≠ [] ∧ (0 ≤ u.lockTime ∧ u.lockTime < 2 ^ 32)
  · obtain ⟨l1, l2, l3⟩ := hl
    refine .inr ⟨_, _, (replaceInputs_ok_iff _ _ _).2 ⟨fun e => l1 ?_, fun e => l2 ?_, by rw [h3]; exact l3, rfl⟩,
      (replaceInputs_ok_iff _ _ _).2 ⟨l1, l2, l3, rfl⟩, (alike_iff _ _).2 ⟨hx, h2, h3, h4⟩⟩
    · have := hx.length_eq
      rw [e] at this
      exact List.length_eq_zero_iff.1 this.symm
    · have := h2.length_eq
      rw [e] at this
      exact List.length_eq_zero_iff.1 this.symm
  · left
    have key : ∀ {α : Type} (l : List α), (l.map some).mapM id = some l := fun l => by
      induction l with
      | nil => rfl
      | cons x l ih => simp [ih]
    unfold Transaction.replaceInputs Transaction.new
    simp only [List.length_map, hx.length_eq, h2.length_eq, key, h3]
    by_cases e1 : ys.length = 0
    · exact ⟨_, if_pos e1, if_pos e1⟩
    · rw [if_neg e1, if_neg e1]
      by_cases e2 : u.outputs.length = 0
      · exact ⟨_, if_pos e2, if_pos e2⟩
      · rw [if_neg e2, if_neg e2]
        have e3 : ¬ (0 ≤ u.lockTime ∧ u.lockTime ≤ 0xFFFFFFFF) := fun h => hl ⟨fun e => e1 (by rw [e]; rfl),
          fun e => e2 (by rw [e]; rfl), by omega⟩
        exact ⟨_, if_pos e3, if_pos e3⟩

theorem payload_alike (H : Hashes) {t u : Transaction} (h : Alike t u) (i st : Int) :
    t.payload H i st = u.payload H i st := by
  unfold Transaction.payload
  have hx := atIndex_alike (R := InAlike) (f := fun x => x) (f' := fun x => x) (g := Input.removeScript)
    (g' := Input.removeScript) (fun _ _ h => h) (fun x y h => by
      obtain ⟨a, b, c, d⟩ := (input_eq_iff _ _).1 h.2
      exact ⟨rfl, (input_eq_iff _ _).2 ⟨a, b, rfl, d⟩⟩) i ((alike_iff _ _).1 h).1 0
  rcases replace_alike h hx with ⟨e, h1, h2⟩ | ⟨v, w, h1, h2, h3⟩
  · rw [h1, h2]
  · rw [h1, h2]
    simp only [tx_bytes h3.eq]

theorem input_sign_alike {x y : Input} (h : InAlike x y) (S : Signer) (ks : List PrivateKey) (p : Bytes) (st : Int) :
    (∃ e, x.sign S ks p st = .error e ∧ y.sign S ks p st = .error e) ∨
    ∃ a b, x.sign S ks p st = .ok a ∧ y.sign S ks p st = .ok b ∧ InAlike a b := by
  obtain ⟨hc, he⟩ := h
  obtain ⟨h1, h2, h3, h4⟩ := (input_eq_iff _ _).1 he
  have hr : ∀ s, InAlike (x.replaceScript s) (y.replaceScript s) := fun s =>
    ⟨rfl, (input_eq_iff _ _).2 ⟨h1, h2, rfl, h4⟩⟩
  have ha : (∃ e, x.signAddress S ks p st = .error e ∧ y.signAddress S ks p st = .error e) ∨
      ∃ a b, x.signAddress S ks p st = .ok a ∧ y.signAddress S ks p st = .ok b ∧ InAlike a b := by
    unfold Input.signAddress
    split
    · split
      · exact .inl ⟨_, rfl, rfl⟩
      · split
        · exact .inl ⟨_, rfl, rfl⟩
        · split
          · exact .inl ⟨_, rfl, rfl⟩
          · exact .inr ⟨_, _, rfl, rfl, hr _⟩
    · exact .inl ⟨_, rfl, rfl⟩
  have hs : (∃ e, x.signScript S ks p st = .error e ∧ y.signScript S ks p st = .error e) ∨
      ∃ a b, x.signScript S ks p st = .ok a ∧ y.signScript S ks p st = .ok b ∧ InAlike a b := by
    have hp : ∀ sigs, PayToScriptIn.create x.script sigs = PayToScriptIn.create y.script sigs := fun sigs => by
      unfold PayToScriptIn.create
      rw [script_bytes h3]
    unfold Input.signScript
    split
    · exact .inl ⟨_, rfl, rfl⟩
    · rw [hp]
      split
      · exact .inl ⟨_, rfl, rfl⟩
      · exact .inr ⟨_, _, rfl, rfl, hr _⟩
  unfold Input.sign
  rw [hc]
  cases y.cls
  · exact .inl ⟨_, rfl, rfl⟩
  · exact ha
  · exact hs
  · exact hs

/-- C140. Transactions that are alike are written alike, have the same id, and signing does the same to them: it fails with the
same error, or makes transactions that are alike again. -/
theorem C140_alike (H : Hashes) (t u : Transaction) (h : Alike t u) : t.toBytes = u.toBytes ∧ t.getId H = u.getId H ∧
    ∀ S ks i st, SameOutcome (t.sign H S ks i st) (u.sign H S ks i st) := by
  refine ⟨tx_bytes h.eq, by unfold Transaction.getId Transaction.getIdBytes; rw [tx_bytes h.eq], fun S ks i st => ?_⟩
  have hi := ((alike_iff _ _).1 h).1
  unfold Transaction.sign
  rw [payload_alike H h]
  cases u.payload H i st with
  | error e => exact .inl ⟨_, rfl, rfl⟩
  | ok p =>
    simp only
    have hx : (pyIndex t.inputs i = .error .indexError ∧ pyIndex u.inputs i = .error .indexError) ∨
        ∃ x y, pyIndex t.inputs i = .ok x ∧ pyIndex u.inputs i = .ok y ∧ InAlike x y := by
      unfold pyIndex
      rw [hi.length_eq]
      rcases forall₂_get hi (if i < 0 then i + (u.inputs.length : Int) else i).toNat with ⟨e1, e2⟩ | ⟨x, y, e1, e2, e3⟩
      · rw [e1, e2]
        exact .inl ⟨rfl, rfl⟩
      · rw [e1, e2]
        simp only
        split
        · exact .inl ⟨rfl, rfl⟩
        · exact .inr ⟨x, y, rfl, rfl, e3⟩
    rcases hx with ⟨e1, e2⟩ | ⟨x, y, e1, e2, e3⟩
    · rw [e1, e2]
      exact .inl ⟨_, rfl, rfl⟩
    · rw [e1, e2]
      simp only
      rcases input_sign_alike e3 S ks p st with ⟨e, g1, g2⟩ | ⟨a, b, g1, g2, g3⟩
      · rw [g1, g2]
        exact .inl ⟨_, rfl, rfl⟩
      · rw [g1, g2]
        exact replace_alike h (atIndex_alike (R := InAlike) (fun _ _ _ => g3) (fun _ _ h => h) i hi 0)

/-! ## Handing over -/

theorem restored {t u : Transaction} (h : u.eq t = true) (r : Transaction)
    (hr : u.replaceInputs (List.zipWith as (t.inputs.map Input.cls) u.inputs) = .ok r) : Alike r t := by
  obtain ⟨h1, h2, h3, h4⟩ := (tx_eq_iff _ _).1 h
  obtain ⟨-, -, -, rfl⟩ := (replaceInputs_ok_iff _ _ _).1 hr
  refine (alike_iff _ _).2 ⟨?_, h2, h3, h4⟩
  show List.Forall₂ InAlike (List.zipWith as (t.inputs.map Input.cls) u.inputs) t.inputs
  generalize t.inputs = ys at h1
  generalize u.inputs = xs at h1
  induction h1 with
  | nil => exact .nil
  | cons a _ ih =>
    refine .cons ⟨rfl, ?_⟩ ih
    exact (input_eq_iff _ _).2 ((input_eq_iff _ _).1 a)

/-- C140. What the next signer has made of the bytes is alike. -/
theorem C140_handed (t r : Transaction) (h : Handed t r) : Alike r t ∧ Serialisable t := by
  obtain ⟨ht, b, u, hb, hu, hr⟩ := h
  have hp : ¬ t.HasPushData := fun hp => by
    rw [C34_pushdata_refuted t ht hp] at hb
    cases hb
  obtain ⟨b', hb', g⟩ := C34_roundtrip_partial t ht hp
  rw [hb] at hb'
  cases hb'
  rcases g [] with ⟨g1, u', -, g2, g3, -⟩ | ⟨-, g2⟩
  · rw [List.append_nil, hu] at g3
    cases g3
    exact ⟨restored g2 r hr, ht, hp, g1⟩
  · rw [List.append_nil, hu] at g2
    cases g2

/-- C140. Transactions that can be written and read can be handed over. -/
theorem C140_hands (t : Transaction) (h : Serialisable t) : ∃ r, Handed t r ∧ Alike r t := by
  obtain ⟨ht, hp, hn⟩ := h
  obtain ⟨b, hb, g⟩ := C34_roundtrip_partial t ht hp
  rcases g [] with ⟨-, u, -, g2, g3, -⟩ | ⟨g1, -⟩
  · rw [List.append_nil] at g3
    obtain ⟨h1, h2, h3, h4⟩ := (tx_eq_iff _ _).1 g2
    obtain ⟨⟨l1, l2, l3⟩, hrest⟩ := ht
    have hr := (replaceInputs_ok_iff u (List.zipWith as (t.inputs.map Input.cls) u.inputs) _).2 ⟨fun e => l1 ?_, fun e => l2 ?_,
      by rw [h3]; exact l3, rfl⟩
    · exact ⟨_, ⟨⟨⟨l1, l2, l3⟩, hrest⟩, b, u, hb, g3, hr⟩, restored g2 _ hr⟩
    · have := congrArg List.length e
      rw [List.length_zipWith, List.length_map, h1.length_eq, Nat.min_self] at this
      exact List.length_eq_zero_iff.1 this
    · have := h2.length_eq
      rw [e] at this
      exact List.length_eq_zero_iff.1 this.symm
  · exact absurd g1 hn

/-- An input that can be serialised and parsed. -/
def FineIn (i : Input) : Prop := i.InRange ∧ ¬ i.script.HasPushData ∧ ¬ i.script.Trips

theorem serialisable_iff (t : Transaction) : Serialisable t ↔ t.Legal ∧ (0 ≤ t.version ∧ t.version < 2 ^ 32) ∧
    (∀ i ∈ t.inputs, FineIn i) ∧ (∀ o ∈ t.outputs, o.Fine) ∧ t.inputs.length < 2 ^ 63 ∧ t.outputs.length < 2 ^ 63 := by
  constructor
  · rintro ⟨⟨h1, h2, h3, h4, h5, h6⟩, hp, hn⟩
    exact ⟨h1, h2, fun i hi => ⟨h3 i hi, fun h => hp (.inl ⟨i, hi, h⟩), fun h => hn (.inl ⟨i, hi, h⟩)⟩,
      fun o ho => ⟨h4 o ho, fun h => hp (.inr ⟨o, ho, h⟩), fun h => hn (.inr ⟨o, ho, h⟩)⟩, h5, h6⟩
  · rintro ⟨h1, h2, h3, h4, h5, h6⟩
    refine ⟨⟨h1, h2, fun i hi => (h3 i hi).1, fun o ho => (h4 o ho).1, h5, h6⟩, ?_, ?_⟩
    · rintro (⟨x, h, h'⟩ | ⟨o, h, h'⟩)
      · exact (h3 x h).2.1 h'
      · exact (h4 o h).2.1 h'
    · rintro (⟨x, h, h'⟩ | ⟨o, h, h'⟩)
      · exact (h3 x h).2.2 h'
      · exact (h4 o h).2.2 h'

theorem alike_serialisable {t u : Transaction} (h : Alike t u) (g : Serialisable u) : Serialisable t := by
  obtain ⟨h1, h2, h3, h4⟩ := (alike_iff _ _).1 h
  obtain ⟨g1, g2, g3, g4, g5, g6⟩ := (serialisable_iff _).1 g
  refine (serialisable_iff _).2 ⟨alike_legal h g1, by rw [h4]; exact g2, fun i hi => ?_, fun o ho => ?_,
    by rw [h1.length_eq]; exact g5, by rw [h2.length_eq]; exact g6⟩
  · obtain ⟨j, hj, e⟩ := forall₂_mem_left h1 hi
    obtain ⟨e1, e2, e3, e4⟩ := (input_eq_iff _ _).1 e.2
    have := g3 j hj
    unfold FineIn Input.InRange Script.Encodable Script.HasPushData Script.Trips at this ⊢
    rw [e1, e2, e3, e4]
    exact this
  · obtain ⟨j, hj, e⟩ := forall₂_mem_left h2 ho
    obtain ⟨e1, e2⟩ := (output_eq_iff _ _).1 e
    have := g4 j hj
    unfold Output.Fine Output.InRange Script.Encodable Script.HasPushData Script.Trips at this ⊢
    rw [e1, e2]
    exact this

/-- C140, part that holds: if the classes of the inputs are told to the next signer and restored, then what is made by handing
the transaction from signer to signer is alike to what calls one after the other make: it has the same bytes and the same id.
Missing: that it need not be told, see the refutation. -/
theorem C140_chain_partial (H : Hashes) (cs : List SignCall) (t u : Transaction) (h : HandedAll H cs t u) :
    ∃ v, signAll H cs t = .ok v ∧ Alike u v ∧ u.toBytes = v.toBytes ∧ u.getId H = v.getId H := by
  have key : ∀ t', Alike t t' → ∃ v, signAll H cs t' = .ok v ∧ Alike u v := by
    induction h with
    | nil => exact fun t' ht => ⟨t', rfl, ht⟩
    | @cons c cs t r v u h1 h2 _ ih =>
      intro t' ht
      rcases (C140_alike H r t' (alike_trans (C140_handed t r h1).1 ht)).2.2 c.signer c.keys c.index c.sigtype with
        ⟨e, g1, -⟩ | ⟨v1, v2, g1, g2, g3⟩
      · unfold SignCall.on at h2
        rw [g1] at h2
        cases h2
      · unfold SignCall.on at h2
        rw [g1] at h2
        cases h2
        unfold signAll SignCall.on
        rw [g2]
        exact ih v2 g3
  obtain ⟨v, hv, ha⟩ := key t (alike_refl t)
  exact ⟨v, hv, ha, (C140_alike H u v ha).1, (C140_alike H u v ha).2.1⟩

/-- C140, part that holds: all that is needed for handing over, each time, is that the transaction can be written and read at
the start and at the end. -/
theorem C140_complete_partial (H : Hashes) (cs : List SignCall) (t v : Transaction) (h : signAll H cs t = .ok v)
    (ht : Serialisable t) (hv : Serialisable v) : ∃ u, HandedAll H cs t u ∧ Alike u v := by
  have key : ∀ t', Alike t' t → ∃ u, HandedAll H cs t' u ∧ Alike u v := by
    induction cs generalizing t with
    | nil =>
      cases h
      exact fun t' ha => ⟨t', .nil, ha⟩
    | cons c cs ih =>
      intro t' ha
      have hne := ((C104_parallel H _ _ _).1 h).1
      unfold signAll at h
      cases hc : c.on H t with
      | error e => rw [hc] at h; cases h
      | ok t1 =>
        rw [hc] at h
        obtain ⟨r, hr, hra⟩ := C140_hands t' (alike_serialisable ha ht)
        rcases (C140_alike H r t (alike_trans hra ha)).2.2 c.signer c.keys c.index c.sigtype with
          ⟨e, -, g2⟩ | ⟨r1, t2, g1, g2, g3⟩
        · unfold SignCall.on at hc
          rw [g2] at hc
          cases hc
        · unfold SignCall.on at hc
          rw [g2] at hc
          cases hc
          have m := ((C104_parallel H _ _ _).1 h).2
          obtain ⟨a1, a2, a3, a4, a5, -⟩ := C37_frame H _ t t1 _ _ _ g2
          obtain ⟨b1, b2, b3, b4, b5, b6⟩ := (serialisable_iff _).1 ht
          obtain ⟨-, -, d3, -⟩ := (serialisable_iff _).1 hv
          have hs : Serialisable t1 := by
            refine (serialisable_iff _).2 ⟨⟨fun e => b1.1 ?_, by rw [a3]; exact b1.2.1, by rw [a2]; exact b1.2.2⟩,
              by rw [a1]; exact b2, fun i hi => ?_, by rw [a3]; exact b4, by rw [a4]; exact b5, by rw [a3]; exact b6⟩
            · rw [e] at a4
              exact List.length_eq_zero_iff.1 a4.symm
            · obtain ⟨n, hn⟩ := List.mem_iff_getElem?.1 hi
              by_cases he : n = c.index
              · refine d3 i (List.mem_iff_getElem?.2 ⟨n, ?_⟩)
                rw [m.others n fun d hd hdn => ?_, hn]
                rw [List.map_cons, List.nodup_cons] at hne
                exact hne.1 (List.mem_map.2 ⟨d, hd, hdn.trans he⟩)
              · refine b3 i (List.mem_iff_getElem?.2 ⟨n, ?_⟩)
                rw [← a5 n (by omega), hn]
          obtain ⟨u, hu, hua⟩ := ih t1 h hs r1 g3
          exact ⟨u, .cons hr g1 hu, hua⟩
  exact key t (alike_refl t)

/-- C140, part that holds: transactions whose inputs spend from addresses can be handed from owner to owner; each signs with
one key, and the result is that of calls one after the other. -/
theorem C140_owners_partial (H : Hashes) (cs : List SignCall) (t v : Transaction) (ht : Serialisable t)
    (ha : ∀ x ∈ t.inputs, x.cls = .address ∨ x.cls = .generic)
    (hc : ∀ c ∈ cs, c.sigtype = 1 ∧ (∃ nonces, NoncesOk nonces ∧ c.signer = keySigner nonces) ∧ ∃ k, k.Good ∧ c.keys = [k])
    (h : signAll H cs t = .ok v) : Serialisable v ∧ ∃ u, HandedAll H cs t u ∧ Alike u v ∧ u.toBytes = v.toBytes := by
  have hv : Serialisable v := by
    induction cs generalizing t with
    | nil => cases h; exact ht
    | cons c cs ih =>
      unfold signAll at h
      cases hs : c.on H t with
      | error e => rw [hs] at h; cases h
      | ok u =>
        rw [hs] at h
        obtain ⟨h1, ⟨ν, hν, h2⟩, k, hk, h3⟩ := hc c List.mem_cons_self
        unfold SignCall.on at hs
        rw [h1, h2, h3] at hs
        obtain ⟨-, -, -, a4, a5, a6⟩ := C37_frame H _ t u _ _ _ hs
        obtain ⟨x, y, p, hx, hy, -, hxy, -, -, -, hg⟩ := a6 c.index rfl
        have hxa : x.cls = .address := by
          rcases ha x (List.mem_iff_getElem?.2 ⟨_, hx⟩) with e | e
          · exact e
          · exact absurd e (sign_signable hxy)
        refine ih u (sign_serialisable H ν hν t u k hk _ x ht hx hxa hs).1 (fun z hz => ?_)
          (fun d hd => hc d (List.mem_cons_of_mem _ hd)) h
        obtain ⟨n, hn⟩ := List.mem_iff_getElem?.1 hz
        by_cases he : n = c.index
        · rw [he, hy] at hn
          cases hn
          exact .inr hg
        · rw [a5 n (by omega)] at hn
          exact ha z (List.mem_iff_getElem?.2 ⟨n, hn⟩)
  obtain ⟨u, hu, hua⟩ := C140_complete_partial H cs t v h ht hv
  exact ⟨hv, u, hu, hua, (C140_alike H u v hua).1⟩

/-! ## What the next signer is told by `can_sign` -/

theorem classify_wires {is js : List Instruction} (h : is.map Instruction.wire = js.map Instruction.wire) :
    Script.classify is = Script.classify js := by
  unfold Script.classify
  simp only [getStructure_eq, h]

/-- The input that was handed over has the same class and fields, a script that is classified by its instructions, and the data
of that script are of type `bytearray`. -/
theorem handed_input {t r : Transaction} (h : Handed t r) {n : Nat} {x : Input} (hx : t.inputs[n]? = some x) :
    ∃ y, r.inputs[n]? = some y ∧ InAlike y x ∧
      y.script.instructions = x.script.wires.map (Scripts.instruction .bytearray) ∧
      Script.classify x.script.instructions = .ok y.script.cls := by
  have ha := (C140_handed t r h).1
  obtain ⟨-, b, u, -, hu, hr⟩ := h
  rcases forall₂_get ((alike_iff _ _).1 ha).1 n with ⟨-, e⟩ | ⟨y, x', hy, hx', hyx⟩
  · rw [hx] at e
    cases e
  · rw [hx] at hx'
    cases hx'
    obtain ⟨-, -, -, rfl⟩ := (replaceInputs_ok_iff _ _ _).1 hr
    refine ⟨y, hy, hyx, ?_⟩
    replace hy : (List.zipWith as (t.inputs.map Input.cls) u.inputs)[n]? = some y := hy
    obtain ⟨c, z, -, hz, rfl⟩ := List.getElem?_zipWith_eq_some.1 hy
    have hw : (as c z).script.wires = x.script.wires := ((input_eq_iff _ _).1 hyx.2).2.2.1
    cases (Txs.C130_transaction_bytes b _).1 hu with
    | transaction _ _ _ _ _ his _ =>
      obtain ⟨w, _, hzw⟩ := forall₂_mem_left his.flip (List.mem_iff_getElem?.2 ⟨n, hz⟩)
      cases hzw with
      | mk hb =>
        have e := (Scripts.C129_bytes _ _).2 hb
        cases hb with
        | script he hc =>
          obtain ⟨g1, g2⟩ := Settle.read_wires hc
          refine ⟨?_, ?_⟩
          · rw [← hw]
            refine Eq.trans g1 (congrArg _ ?_)
            exact g2.symm
          · rcases script_fromBytes _ _ he with ⟨_, s', h1, h2, h3⟩ | ⟨_, h1⟩
            · rw [e] at h1
              cases h1
              exact (classify_wires hw.symm).trans h3
            · rw [e] at h1
              cases h1

/-- C140, part that holds: `AddressInput.can_sign` tells the next signer what it told the one before, if the script had the
class that its instructions ask for, as it has if it was made by `AddressInput.create`. -/
theorem C140_can_sign_partial (H : Hashes) (t r : Transaction) (h : Handed t r) (n : Nat) (x : Input)
    (hx : t.inputs[n]? = some x) (hc : Script.classify x.script.instructions = .ok x.script.cls) (ks : List PrivateKey) :
    ∃ y, r.inputs[n]? = some y ∧ y.cls = x.cls ∧ AddressInput.canSign H y ks = AddressInput.canSign H x ks := by
  obtain ⟨y, hy, ha, hi, hcl⟩ := handed_input h hx
  refine ⟨y, hy, ha.1, ?_⟩
  rw [hc] at hcl
  have hcl : x.script.cls = y.script.cls := Except.ok.inj hcl
  have hd : (PayToPubkeyOut.getAddressHash y.script).map (Option.map Data.val) =
      (PayToPubkeyOut.getAddressHash x.script).map (Option.map Data.val) := by
    unfold PayToPubkeyOut.getAddressHash dataAt
    rw [hi, Script.wires, List.map_map, List.getElem?_map]
    cases x.script.instructions[2]? with
    | none => rfl
    | some i =>
      obtain ⟨op, d⟩ := i
      cases d <;> rfl
  unfold AddressInput.canSign
  rw [← hcl]
  split
  · split
    · rfl
    · split
      · cases h1 : PayToPubkeyOut.getAddressHash x.script <;> cases h2 : PayToPubkeyOut.getAddressHash y.script <;>
          rw [h1, h2] at hd <;> simp_all [Except.map]
      · rfl
  · rfl

/-- C140 is false of `MultisigInput.can_sign`, even if the classes are restored: where it told the signer before that the keys
can sign, it raises for the next one, since the public keys that were read are of type `bytearray`. -/
theorem C140_can_sign_refuted (t r : Transaction) (h : Handed t r) (n : Nat) (x : Input) (hx : t.inputs[n]? = some x)
    (hc : Script.classify x.script.instructions = .ok x.script.cls) (ks : List PrivateKey)
    (hk : MultisigInput.canSign x ks = .ok true) :
    ∃ y, r.inputs[n]? = some y ∧ y.cls = x.cls ∧ MultisigInput.canSign y ks = .error .pubInvalidBinary := by
  obtain ⟨y, hy, ha, hi, hcl⟩ := handed_input h hx
  refine ⟨y, hy, ha.1, ?_⟩
  rw [hc] at hcl
  have hcl : x.script.cls = y.script.cls := Except.ok.inj hcl
  unfold MultisigInput.canSign at hk ⊢
  rw [← hcl]
  split at hk
  swap
  · cases hk
  next hred =>
  rw [if_pos hred]
  have hm : RedeemMultisig.getMinSignatures y.script = RedeemMultisig.getMinSignatures x.script := by
    unfold RedeemMultisig.getMinSignatures
    rw [hi, Script.wires, List.map_map, List.getElem?_map]
    cases x.script.instructions[0]? with
    | none => rfl
    | some i => rfl
  rw [hm]
  split at hk
  · cases hk
  next m hmin =>
  split at hk
  · cases hk
  next hlen =>
  rw [if_neg hlen]
  split at hk
  · cases hk
  next expected hexp =>
  have h4 : 4 ≤ x.script.instructions.length := by
    rcases classify_spec x.script.instructions with ⟨-, g⟩ | ⟨-, c, g1, g2⟩
    · rw [hc] at g
      cases g
    · rw [hc] at g1
      cases g1
      obtain ⟨a, b, k, hk1, -, -, he⟩ := (g2 .multisig).1 (by rw [hred]; rfl)
      have := congrArg List.length he
      simp [shape] at this
      omega
  unfold RedeemMultisig.getPublicKeys at hexp ⊢
  obtain ⟨i0, i1, rest, hr⟩ : ∃ i0 i1 rest, x.script.instructions = i0 :: i1 :: rest ∧ 2 ≤ rest.length := by
    match x.script.instructions, h4 with
    | i0 :: i1 :: rest, h4 => exact ⟨i0, i1, rest, rfl, by simpa using h4⟩
  obtain ⟨hr, hl⟩ := hr
  rw [hi, Script.wires, hr]
  rw [hr] at hexp
  obtain ⟨k, hk2⟩ : ∃ k, (i0 :: i1 :: rest).length - 2 = k + 2 := ⟨rest.length - 2, by simp; omega⟩
  rw [hk2] at hexp
  rw [List.length_map, List.length_map, hk2]
  simp only [List.map_cons, List.take_succ_cons, List.drop_succ_cons, List.drop_zero] at hexp ⊢
  rw [List.mapM_cons] at hexp ⊢
  obtain ⟨op, d⟩ := i1
  cases d with
  | none => cases hexp
  | some d =>
    have : publicKeyOf (Scripts.instruction .bytearray (Instruction.wire ⟨op, some d⟩)).data = .error .pubInvalidBinary :=
      C19_bytearray d.val _
    rw [this]
    rfl

/-- C140 is false of the code: what is read from the bytes of a transaction is equal to it, but can never be signed. -/
theorem C140_read_refuted (t : Transaction) (h : Serialisable t) : ∃ b r, t.toBytes = .ok b ∧
    Transaction.fromBytes b = .ok r ∧ r.eq t = true ∧ ∀ H S ks i st, ∃ e, r.sign H S ks i st = .error e := by
  obtain ⟨ht, hp, hn⟩ := h
  obtain ⟨b, hb, g⟩ := C34_roundtrip_partial t ht hp
  rcases g [] with ⟨-, u, -, g2, g3, -⟩ | ⟨g1, -⟩
  · rw [List.append_nil] at g3
    exact ⟨b, u, hb, g3, g2, fun H S ks i st => C40_parsed H S b u ks i st g3⟩
  · exact absurd g1 hn

/-- A transaction that can be signed, and can be written and read before and after. -/
theorem scriptTx_serialisable : Serialisable scriptTx ∧ Serialisable scriptTxSigned := by
  have ho : sampleOutput.Fine := ⟨sample_output, by decide, fun h => absurd h.1 (by decide)⟩
  refine ⟨(serialisable_iff _).2 ⟨script_tx.1, by decide, fun i hi => ?_, fun o hm => ?_, by decide, by decide⟩,
    (serialisable_iff _).2 ⟨⟨by decide, by decide, by decide, by decide⟩, by decide, fun i hi => ?_, fun o hm => ?_,
      by decide, by decide⟩⟩
  · rw [List.mem_singleton.1 hi]
    exact ⟨script_tx.2.2.1 _ (List.mem_singleton.2 rfl), by decide, fun h => absurd h.1 (by decide)⟩
  · rw [List.mem_singleton.1 hm]
    exact ho
  · rw [List.mem_singleton.1 hi]
    exact ⟨⟨sample_input.1, by decide, ⟨[0, 3, 9, 9, 1, 1, 81], .cons (b := [0]) (by decide) rfl (.cons (b := [3, 9, 9, 1])
      (by decide) rfl (.cons (b := [1, 81]) (by decide) rfl .nil)), by decide⟩, by decide⟩, by decide,
      fun h => absurd h.1 (by decide)⟩
  · rw [List.mem_singleton.1 hm]
    exact ho

example : let c : SignCall := ⟨fun _ _ _ => .ok [9, 9], [⟨1, .livenet, true⟩], 0, 1⟩
    ∃ u, HandedAll .toy [c] scriptTx u ∧ Alike u scriptTxSigned :=
  C140_complete_partial .toy _ _ _ (by decide +kernel) scriptTx_serialisable.1 scriptTx_serialisable.2

/-- The first input of `pairTx` is signed by its owner. -/
example : let c : SignCall := ⟨keySigner fun _ => 1, [oneKey], 0, 1⟩
    Serialisable pairSigned ∧ ∃ u, HandedAll .real [c] pairTx u ∧ Alike u pairSigned ∧ u.toBytes = pairSigned.toBytes := by
  intro c
  have h : signAll .real [c] pairTx = .ok pairSigned := by
    unfold signAll
    rw [show c.on .real pairTx = .ok pairSigned from pair_signs]
    rfl
  refine C140_owners_partial .real [c] pairTx pairSigned pair_serialisable (fun x hx => ?_) (fun d hd => ?_) h
  · simp only [pairTx, List.mem_cons, List.not_mem_nil, or_false] at hx
    rcases hx with rfl | rfl <;> exact .inl rfl
  · rw [List.mem_singleton.1 hd]
    exact ⟨rfl, ⟨_, nonce_one, rfl⟩, oneKey, both_good _ (by simp), rfl⟩

/-- `pairTx` is handed over: `can_sign` says the same about the key of the first address. -/
example : ∃ r, Handed pairTx r ∧ ∃ x y, pairTx.inputs[0]? = some x ∧ r.inputs[0]? = some y ∧ y.cls = x.cls ∧
    AddressInput.canSign .real y [oneKey] = .ok true := by
  obtain ⟨r, h, -⟩ := C140_hands pairTx pair_serialisable
  obtain ⟨y, h1, h2, h3⟩ := C140_can_sign_partial .real pairTx r h 0 _ rfl (by decide +kernel) [oneKey]
  exact ⟨r, h, _, y, rfl, h1, h2, h3.trans (by decide +kernel)⟩

/-- `bothTx` is handed over: both keys could sign it before, and `can_sign` raises afterwards. -/
example : MultisigInput.canSign bothInput [twoKey, oneKey] = .ok true ∧ ∃ r, Handed bothTx r ∧ ∃ y, r.inputs[0]? = some y ∧
    y.cls = bothInput.cls ∧ MultisigInput.canSign y [twoKey, oneKey] = .error .pubInvalidBinary := by
  have hs : Serialisable bothTx := by
    refine ⟨both_tx, by unfold Transaction.HasPushData Script.HasPushData; decide +kernel, ?_⟩
    rintro (⟨x, hx, h⟩ | ⟨o, ho, h⟩)
    · rw [List.mem_singleton.1 hx] at h
      rcases h.2.2 with g | ⟨-, g⟩ <;> exact absurd g (by decide +kernel)
    · rw [List.mem_singleton.1 ho] at h
      exact absurd h.1 (by decide +kernel)
  obtain ⟨r, h, -⟩ := C140_hands bothTx hs
  exact ⟨both_create.2.2.2, r, h, C140_can_sign_refuted bothTx r h 0 bothInput rfl (by decide +kernel) _ both_create.2.2.2⟩

end Bitforge.Hand
