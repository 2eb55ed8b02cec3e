import Verif.Proofs.Script

/-! Helper lemmas on the classification of scripts. -/

namespace Bitforge
open Spec

/-- A shape element as `get_structure` shows it. -/
def item : Option Byte → StructItem
  | none => .push
  | some b => .op ⟨b⟩

theorem item_injective : Function.Injective item := by
  intro a b h
  cases a <;> cases b <;> simp_all [item]

theorem getStructure_eq (is : List Instruction) : getStructure is = (shape (is.map Instruction.wire)).map item := by
  unfold getStructure shape
  rw [List.map_map, List.map_map]
  apply List.map_congr_left
  intro i _
  obtain ⟨⟨op⟩, d⟩ := i
  show (if ¬ (Opcode.mk op).isPush = true then StructItem.op ⟨op⟩ else .push) =
    item (if pushKind op = .plain then some op else none)
  by_cases h : pushKind op = .plain
  · rw [if_pos (by simp [(pushKind_plain op).2 h]), if_pos h]; rfl
  · rw [if_neg, if_neg h]
    · rfl
    · simp only [Bool.not_eq_true, not_not]
      by_contra hc
      exact h ((pushKind_plain op).1 (by simpa using hc))

theorem isNumber_iff : ∀ b : Byte, (Opcode.mk b).isNumber = (smallNumber b).isSome := by decide +kernel

theorem map_item_eq (s t : List (Option Byte)) : s.map item = t.map item ↔ s = t :=
  (List.map_injective_iff.2 item_injective).eq_iff

theorem p2pkhIn_iff (s : List (Option Byte)) : PayToPubkeyIn.isValid (s.map item) = true ↔ Matches .p2pkhIn s := by
  simp only [PayToPubkeyIn.isValid, Matches, decide_eq_true_eq]
  exact map_item_eq s [none, none]

theorem p2pkhOut_iff (s : List (Option Byte)) : PayToPubkeyOut.isValid (s.map item) = true ↔ Matches .p2pkhOut s := by
  simp only [PayToPubkeyOut.isValid, Matches, decide_eq_true_eq]
  exact map_item_eq s [some 118, some 169, none, some 136, some 172]

theorem p2shOut_iff (s : List (Option Byte)) : PayToScriptOut.isValid (s.map item) = true ↔ Matches .p2shOut s := by
  simp only [PayToScriptOut.isValid, Matches, decide_eq_true_eq]
  exact map_item_eq s [some 169, none, some 135]

theorem nullData_iff (s : List (Option Byte)) : OpReturnOut.isValid (s.map item) = true ↔ Matches .nullData s := by
  simp only [OpReturnOut.isValid, Matches, decide_eq_true_eq]
  exact map_item_eq s [some 106, none]

theorem all_push_iff (s : List (Option Byte)) :
    (s.map item).all (· = .push) = true ↔ s = List.replicate s.length none := by
  rw [List.eq_replicate_iff]
  simp only [List.all_eq_true, List.mem_map, true_and]
  constructor
  · intro h b hb
    have := h (item b) ⟨b, hb, rfl⟩
    cases b <;> simp_all [item]
  · rintro h x ⟨b, hb, rfl⟩
    rw [h b hb]; rfl

theorem p2shIn_iff (s : List (Option Byte)) : PayToScriptIn.isValid (s.map item) = true ↔ Matches .p2shIn s := by
  simp only [PayToScriptIn.isValid, Matches]
  cases s with
  | nil => simp
  | cons a s =>
    simp only [List.map_cons, List.drop_succ_cons, List.drop_zero, Bool.and_eq_true, all_push_iff,
      List.length_cons, decide_eq_true_eq, List.length_map, List.getElem?_cons_zero, Option.some.injEq]
    constructor
    · rintro ⟨⟨hl, ha⟩, hs⟩
      refine ⟨s.length, by omega, ?_⟩
      rw [← hs, show a = some 0 from item_injective ha]
    · rintro ⟨k, hk, h⟩
      simp only [List.cons.injEq] at h
      obtain ⟨rfl, rfl⟩ := h
      simp
      exact ⟨by omega, rfl⟩

/-- The shapes on which `RedeemMultisig.is_valid` calls `is_number` on the string `'PUSH'`. -/
def Crashes (s : List (Option Byte)) : Prop :=
  4 ≤ s.length ∧ ¬ Matches .p2shIn s ∧
    (s.head? = some none ∨
      (∃ m, s.head? = some (some m) ∧ (smallNumber m).isSome) ∧ s[s.length - 2]? = some none)

theorem redeem_spec (s : List (Option Byte)) :
    (4 ≤ s.length ∧ (s.head? = some none ∨
      (∃ m, s.head? = some (some m) ∧ (smallNumber m).isSome) ∧ s[s.length - 2]? = some none) ∧
      RedeemMultisig.isValid (s.map item) = .error .attributeError) ∨
    (¬ (4 ≤ s.length ∧ (s.head? = some none ∨
      (∃ m, s.head? = some (some m) ∧ (smallNumber m).isSome) ∧ s[s.length - 2]? = some none)) ∧
      ∃ r, RedeemMultisig.isValid (s.map item) = .ok r ∧ (r = true ↔ Matches .multisig s)) := by
  by_cases hl : 4 ≤ s.length
  swap
  · right
    refine ⟨fun h => hl h.1, false, ?_, ?_⟩
    · simp only [RedeemMultisig.isValid, List.length_map]; rw [if_neg (by omega)]
    · simp only [Matches]
      constructor
      · simp
      · rintro ⟨m, n, k, hk, _, _, rfl⟩
        simp at hl; omega
  -- split off the first and the last two elements
  obtain ⟨a, mid, y, z, rfl, hmid⟩ : ∃ a mid y z, s = a :: (mid ++ [y, z]) ∧ 1 ≤ mid.length := by
    match s, hl with
    | a :: t, hl =>
      have ht : 3 ≤ t.length := by simpa using hl
      refine ⟨a, t.take (t.length - 2), t[t.length - 2]'(by omega), t[t.length - 1]'(by omega), ?_, by
        rw [List.length_take]; omega⟩
      congr 1
      have e : t.drop (t.length - 2) = [t[t.length - 2]'(by omega), t[t.length - 1]'(by omega)] := by
        rw [List.drop_eq_getElem_cons (by omega), List.drop_eq_getElem_cons (by omega)]
        simp only [show t.length - 2 + 1 = t.length - 1 by omega]
        rw [List.drop_of_length_le (by omega)]
      rw [← e, List.take_append_drop]
  have hlen : (a :: (mid ++ [y, z])).length = mid.length + 3 := by simp
  have e2 : (a :: (mid ++ [y, z]))[mid.length + 3 - 2]? = some y := by
    rw [show mid.length + 3 - 2 = mid.length + 1 by omega, List.getElem?_cons_succ, List.getElem?_append_right (by omega)]
    simp
  have e1 : (a :: (mid ++ [y, z]))[mid.length + 3 - 1]? = some z := by
    rw [show mid.length + 3 - 1 = (mid.length + 1) + 1 by omega, List.getElem?_cons_succ,
      List.getElem?_append_right (by omega)]
    simp
  have hval : RedeemMultisig.isValid ((a :: (mid ++ [y, z])).map item) =
      match (item a).isNumber with
      | .error e => .error e
      | .ok false => .ok false
      | .ok true =>
        match (item y).isNumber with
        | .error e => .error e
        | .ok false => .ok false
        | .ok true => .ok (decide (z = some 174) && (mid.map item).all (· = .push)) := by
    unfold RedeemMultisig.isValid
    rw [List.length_map, hlen, if_pos (by omega)]
    simp only [List.getElem?_map, e2, e1, List.getElem?_cons_zero, Option.map_some]
    have e3 : ((List.map item (a :: (mid ++ [y, z]))).drop 1).take (mid.length + 3 - 3) = mid.map item := by
      simp [List.take_append]
    rw [e3]
    have e4 : decide (some (item z) = some (StructItem.op (Opcode.num 174))) = decide (z = some 174) := by
      apply decide_eq_decide.2
      rw [Option.some.injEq]
      exact item_injective.eq_iff (b := some 174)
    rw [e4]
    cases (item a).isNumber with
    | error e => rfl
    | ok b => cases b <;> rfl
  rw [hval, hlen, e2, List.head?_cons]
  cases a with
  | none =>
    left; exact ⟨by omega, .inl rfl, rfl⟩
  | some a =>
    have h1 : (item (some a)).isNumber = .ok (smallNumber a).isSome := by
      show Except.ok (Opcode.mk a).isNumber = _; rw [isNumber_iff]
    rw [h1]
    cases ha : (smallNumber a).isSome with
    | false =>
      right
      refine ⟨by simp [ha], false, rfl, ?_⟩
      simp only [Matches, Bool.false_eq_true, false_iff]
      rintro ⟨m, n, k, hk, hm, _, he⟩
      simp only [List.cons.injEq, Option.some.injEq] at he
      rw [← he.1, ha] at hm; cases hm
    | true =>
      cases y with
      | none => left; exact ⟨by omega, .inr ⟨⟨a, rfl, ha⟩, rfl⟩, rfl⟩
      | some y =>
        right
        refine ⟨by simp, ?_⟩
        have h2 : (item (some y)).isNumber = .ok (smallNumber y).isSome := by
          show Except.ok (Opcode.mk y).isNumber = _; rw [isNumber_iff]
        rw [h2]
        have hM : Matches .multisig (some a :: (mid ++ [some y, z])) ↔
            (smallNumber y).isSome = true ∧ z = some 174 ∧ mid = List.replicate mid.length none := by
          simp only [Matches]
          constructor
          · rintro ⟨m, n, k, hk, hm, hn, he⟩
            simp only [List.cons.injEq] at he
            have hlen' := congrArg List.length he.2
            simp only [List.length_append, List.length_replicate, List.length_cons, List.length_nil] at hlen'
            obtain ⟨hx, hy⟩ := List.append_inj he.2 (by rw [List.length_replicate]; omega)
            simp only [List.cons.injEq, Option.some.injEq, and_true] at hy
            obtain ⟨rfl, rfl⟩ := hy
            exact ⟨hn, rfl, by rw [hx, List.length_replicate]⟩
          · rintro ⟨hn, rfl, hr⟩
            refine ⟨a, y, mid.length, hmid, ha, hn, ?_⟩
            rw [← hr]
        rw [hM]
        cases hy : (smallNumber y).isSome with
        | false => exact ⟨false, rfl, by simp⟩
        | true =>
          refine ⟨_, rfl, ?_⟩
          rw [Bool.and_eq_true, decide_eq_true_eq, all_push_iff]
          simp

/-- The template of a script class. -/
def ScriptClass.template : ScriptClass → Option Template
  | .generic => none
  | .payToPubkeyIn => some .p2pkhIn
  | .payToPubkeyOut => some .p2pkhOut
  | .payToScriptIn => some .p2shIn
  | .payToScriptOut => some .p2shOut
  | .opReturnOut => some .nullData
  | .redeemMultisig => some .multisig

/-- The first and last elements of a shape determine the template. -/
theorem matches_ends {s : List (Option Byte)} {t : Template} (h : Matches t s) :
    t = if s.head? = some none then .p2pkhIn else if s.head? = some (some 118) then .p2pkhOut
      else if s.head? = some (some 169) then .p2shOut else if s.head? = some (some 106) then .nullData
      else if s.getLast? = some none then .p2shIn else .multisig := by
  cases t <;> simp only [Matches] at h
  · subst h; rfl
  · subst h; rfl
  · obtain ⟨k, hk, rfl⟩ := h
    obtain ⟨k, rfl⟩ : ∃ j, k = j + 1 := ⟨k - 1, by omega⟩
    have hl : (some 0 :: List.replicate (k + 1) (none : Option Byte)).getLast? = some none := by
      rw [List.getLast?_cons, List.getLast?_replicate]; simp
    rw [hl]; simp
  · subst h; rfl
  · subst h; rfl
  · obtain ⟨m, n, k, hk, hm, hn, rfl⟩ := h
    have hl : (some m :: (List.replicate k (none : Option Byte) ++ [some n, some 174])).getLast? = some (some 174) := by
      rw [List.getLast?_cons]; simp
    rw [hl]
    have h1 : m ≠ 118 := by rintro rfl; exact absurd hm (by decide)
    have h2 : m ≠ 169 := by rintro rfl; exact absurd hm (by decide)
    have h3 : m ≠ 106 := by rintro rfl; exact absurd hm (by decide)
    simp [h1, h2, h3]

theorem matches_exclusive {s : List (Option Byte)} {t t' : Template} (h : Matches t s) (h' : Matches t' s) : t = t' :=
  (matches_ends h).trans (matches_ends h').symm

/-- The classification is exact, or it raises AttributeError. -/
theorem classify_spec (is : List Instruction) :
    (Crashes (shape (is.map Instruction.wire)) ∧ Script.classify is = .error .attributeError) ∨
    (¬ Crashes (shape (is.map Instruction.wire)) ∧ ∃ c, Script.classify is = .ok c ∧
      ∀ t, c.template = some t ↔ Matches t (shape (is.map Instruction.wire))) := by
  unfold Script.classify
  simp only []
  rw [getStructure_eq]
  generalize shape (is.map Instruction.wire) = s
  have done : ∀ (c : ScriptClass) (t : Template), c.template = some t → Matches t s →
      ∀ t', c.template = some t' ↔ Matches t' s := by
    intro c t hc hm t'
    constructor
    · intro h; rw [hc] at h; cases h; exact hm
    · intro h; rw [hc, matches_exclusive hm h]
  have nocrash : ∀ t, t ≠ .multisig → Matches t s → ¬ Crashes s := by
    rintro t ht hm ⟨hl, hn, h⟩
    cases t <;> simp only [Matches] at hm
    · subst hm; simp at hl
    · subst hm; simp [smallNumber] at h
    · exact hn hm
    · subst hm; simp at hl
    · subst hm; simp at hl
    · exact ht rfl
  by_cases h1 : Matches .p2pkhIn s
  · right; rw [if_pos ((p2pkhIn_iff s).2 h1)]
    exact ⟨nocrash _ (by simp) h1, _, rfl, done _ .p2pkhIn rfl h1⟩
  rw [if_neg (by rw [p2pkhIn_iff]; exact h1)]
  by_cases h2 : Matches .p2pkhOut s
  · right; rw [if_pos ((p2pkhOut_iff s).2 h2)]
    exact ⟨nocrash _ (by simp) h2, _, rfl, done _ .p2pkhOut rfl h2⟩
  rw [if_neg (by rw [p2pkhOut_iff]; exact h2)]
  by_cases h3 : Matches .p2shIn s
  · right; rw [if_pos ((p2shIn_iff s).2 h3)]
    exact ⟨nocrash _ (by simp) h3, _, rfl, done _ .p2shIn rfl h3⟩
  rw [if_neg (by rw [p2shIn_iff]; exact h3)]
  by_cases h4 : Matches .p2shOut s
  · right; rw [if_pos ((p2shOut_iff s).2 h4)]
    exact ⟨nocrash _ (by simp) h4, _, rfl, done _ .p2shOut rfl h4⟩
  rw [if_neg (by rw [p2shOut_iff]; exact h4)]
  by_cases h5 : Matches .nullData s
  · right; rw [if_pos ((nullData_iff s).2 h5)]
    exact ⟨nocrash _ (by simp) h5, _, rfl, done _ .nullData rfl h5⟩
  rw [if_neg (by rw [nullData_iff]; exact h5)]
  rcases redeem_spec s with ⟨hl, hc, he⟩ | ⟨hn, r, hr, hm⟩
  · left; rw [he]; exact ⟨⟨hl, h3, hc⟩, rfl⟩
  · right
    refine ⟨fun hc => hn ⟨hc.1, hc.2.2⟩, ?_⟩
    rw [hr]
    cases r with
    | true => exact ⟨_, rfl, done _ .multisig rfl (hm.1 rfl)⟩
    | false =>
      refine ⟨_, rfl, fun t => ?_⟩
      simp only [ScriptClass.template]
      constructor
      · simp
      · intro h
        cases t with
        | multisig => exact absurd (hm.2 h) (by simp)
        | _ => contradiction

end Bitforge
