import Verif.Spec.Step
import Verif.Props.Reasons
import Verif.Props.InterpOps

/-! # C123: what one instruction does to the interpreter in every case -/

namespace Bitforge
namespace Interpreter
open Spec

theorem holds_iff (b : Bytes) : castToBool b = true ↔ Holds b := C51_exact b

theorem holds_not (b : Bytes) : castToBool b = false ↔ ¬ Holds b := by
  rw [← holds_iff]; cases castToBool b <;> simp

theorem unary_value {op : Nat} {n m : Int} (h : Unary op n m) (ho : op ≠ 144) :
    unaryOp op n = m ∧ op ∈ [139, 140, 143, 145, 146] := by
  cases h
  case absPos => exact absurd rfl ho
  case absNeg => exact absurd rfl ho
  case not1 h => exact ⟨ofBool_no (by simpa using h), by decide⟩
  case ne1 h => exact ⟨ofBool_yes (by simpa using h), by decide⟩
  all_goals exact ⟨rfl, by decide⟩

theorem unary_total {op : Nat} (n : Int) (ho : op ∈ [139, 140, 143, 145, 146]) : Unary op n (unaryOp op n) := by
  simp only [List.mem_cons, List.not_mem_nil, or_false] at ho
  rcases ho with rfl | rfl | rfl | rfl | rfl
  · exact .add1 n
  · exact .sub1 n
  · exact .neg n
  · by_cases h : n = 0
    · subst h; exact .not0
    · rw [show unaryOp 145 n = 0 from ofBool_no (by simpa using h)]; exact .not1 h
  · by_cases h : n = 0
    · subst h; exact .ne0
    · rw [show unaryOp 146 n = 1 from ofBool_yes (by simpa using h)]; exact .ne1 h

theorem binary_total {op : Nat} (a b : Int) (ho : op ∈ [147, 148, 154, 155, 156, 158, 159, 160, 161, 162, 163, 164]) :
    Binary op a b (binaryOp op a b) := by
  have cmp : ∀ {op : Nat} {v : Bool}, op ∈ [154, 155, 156, 158, 159, 160, 161, 162] → (v = true ↔ Compares op a b) →
      Binary op a b (ofBool v) := by
    intro op v hm hv
    cases v
    · exact .no hm (fun h => by cases hv.2 h)
    · exact .yes hm (hv.1 rfl)
  simp only [List.mem_cons, List.not_mem_nil, or_false] at ho
  rcases ho with rfl | rfl | rfl | rfl | rfl | rfl | rfl | rfl | rfl | rfl | rfl | rfl
  · exact .add a b
  · exact .sub a b
  · exact cmp (by decide) (by unfold Compares; simp)
  · exact cmp (by decide) (by unfold Compares; simp)
  · exact cmp (by decide) (by unfold Compares; simp)
  · exact cmp (by decide) (by unfold Compares; simp)
  · exact cmp (by decide) (by unfold Compares; simp)
  · exact cmp (by decide) (by unfold Compares; simp)
  · exact cmp (by decide) (by unfold Compares; simp)
  · exact cmp (by decide) (by unfold Compares; simp)
  · show Binary 163 a b (min a b)
    rcases le_total a b with h | h
    · rw [min_eq_left h]; exact .min1 h
    · rw [min_eq_right h]; exact .min2 h
  · show Binary 164 a b (max a b)
    rcases le_total a b with h | h
    · rw [max_eq_right h]; exact .max2 h
    · rw [max_eq_left h]; exact .max1 h

theorem binary_value {op : Nat} {a b c : Int} (h : Binary op a b c) :
    binaryOp op a b = c ∧ op ∈ [147, 148, 154, 155, 156, 158, 159, 160, 161, 162, 163, 164] := by
  have hm : op ∈ [147, 148, 154, 155, 156, 158, 159, 160, 161, 162, 163, 164] := by
    cases h
    case yes hm _ => simp only [List.mem_cons, List.not_mem_nil, or_false] at hm ⊢; omega
    case no hm _ => simp only [List.mem_cons, List.not_mem_nil, or_false] at hm ⊢; omega
    all_goals decide
  refine ⟨?_, hm⟩
  have ht := binary_total a b hm
  cases h
  case add => rfl
  case sub => rfl
  case min1 h => exact min_eq_left h
  case min2 h => exact min_eq_right h
  case max1 h => exact max_eq_left h
  case max2 h => exact max_eq_right h
  case yes hm' hc =>
    generalize binaryOp op a b = v at ht
    cases ht <;> first | rfl | (rename_i h _; exact absurd hc (by assumption)) | (exact absurd hm' (by decide))
  case no hm' hc =>
    generalize binaryOp op a b = v at ht
    cases ht <;> first | rfl | (exact absurd (by assumption) hc) | (exact absurd hm' (by decide))

theorem acts_sound {H : Hashes} {s t : State} {op : Nat} (h : Acts H s op t) : exec H s op true = .next t := by
  cases h with
  | constant ho =>
    unfold exec
    rw [if_pos ho]
    rfl
  | nop => rfl
  | upgradable ho hf =>
    unfold exec
    rw [if_neg (by omega), if_neg (by omega), if_neg (by omega), if_pos ho, if_neg (by rw [hf]; decide)]
  | taken hs ho =>
    rcases ho with ⟨rfl, hv⟩ | ⟨rfl, hv⟩
    · show opIf s true false = _
      simp only [opIf, hs, if_true, (holds_iff _).2 hv, Bool.false_eq_true, if_false]
    · show opIf s true true = _
      simp only [opIf, hs, if_true, (holds_not _).2 hv, Bool.not_false]
  | notTaken hs ho =>
    rcases ho with ⟨rfl, hv⟩ | ⟨rfl, hv⟩
    · show opIf s true false = _
      simp only [opIf, hs, if_true, (holds_not _).2 hv, Bool.false_eq_true, if_false]
    · show opIf s true true = _
      simp only [opIf, hs, if_true, (holds_iff _).2 hv, Bool.not_true]
  | verify hs hv =>
    show opVerify s = _
    simp only [opVerify, hs, (holds_iff _).2 hv, if_true]
  | toAlt hs => show toAltStack s = _; simp only [toAltStack, hs]
  | fromAlt hs => show fromAltStack s = _; simp only [fromAltStack, hs]
  | rule hr hd hs =>
    cases hr
    case drop => exact absurd rfl hd
    all_goals
      simp only [List.reverse_cons, List.reverse_nil, List.nil_append, List.cons_append] at hs
      cases s
      subst hs
      rfl
  | dropLast hs => cases s; subst hs; rfl
  | dropTwo hs => cases s; subst hs; rfl
  | ifdup hs hv =>
    cases s; subst hs
    show Res.next _ = _
    simp only [(holds_iff _).2 hv, if_true]
  | ifnodup hs hv =>
    cases s; subst hs
    show Res.next _ = _
    simp only [(holds_not _).2 hv, Bool.false_eq_true, if_false]
  | depth => rfl
  | size hs => cases s; subst hs; rfl
  | pick hs hn =>
    rename_i x d a c
    rw [exec_121]
    obtain ⟨y, r, e⟩ : ∃ y r, a ++ d :: c = y :: r := by cases a <;> simp
    rw [List.cons_append, e] at hs
    unfold Reads at hn
    simp only [pickRoll, hs, hn]
    simp only [← e]
    rw [if_neg (by simp only [List.length_append, List.length_cons]; push_cast; omega)]
    simp
  | roll hs hn =>
    rename_i x d a c
    rw [exec_122]
    obtain ⟨y, r, e⟩ : ∃ y r, a ++ d :: c = y :: r := by cases a <;> simp
    rw [List.cons_append, e] at hs
    unfold Reads at hn
    simp only [pickRoll, hs, hn]
    simp only [← e]
    rw [if_neg (by simp only [List.length_append, List.length_cons]; push_cast; omega)]
    simp [List.eraseIdx_append_of_length_le]
  | equal hs =>
    rw [exec_135]
    simp only [opEqual, hs, Bool.false_eq_true, if_false, beq_eq_decide]
    rfl
  | equalVerify hs e =>
    rw [exec_136]
    simp only [opEqual, hs, e, beq_self_eq_true, if_true]
  | unary hs hn ho hu =>
    obtain ⟨e, hm⟩ := unary_value hu ho
    have e2 : exec H s op true = opUnary s (flag s MINIMALDATA) op := by
      simp only [List.mem_cons, List.not_mem_nil, or_false] at hm
      rcases hm with rfl | rfl | rfl | rfl | rfl <;> rfl
    unfold Reads at hn
    rw [e2]
    simp only [opUnary, hs, hn, e]
    rfl
  | abs hs hn =>
    show opUnary s (flag s MINIMALDATA) 144 = _
    unfold Reads at hn
    simp only [opUnary, hs, hn]
    rfl
  | binary hs ha hb hc =>
    obtain ⟨e, hm⟩ := binary_value hc
    have e2 : exec H s op true = opBinary s (flag s MINIMALDATA) op ∧ op ≠ 157 := by
      simp only [List.mem_cons, List.not_mem_nil, or_false] at hm
      rcases hm with rfl | rfl | rfl | rfl | rfl | rfl | rfl | rfl | rfl | rfl | rfl | rfl <;> exact ⟨rfl, by decide⟩
    unfold Reads at ha hb
    rw [e2.1]
    simp only [opBinary, hs, ha, hb, e]
    rw [if_neg e2.2]
    rfl
  | numEqualVerify hs ha hb =>
    rename_i x y r a
    show opBinary s (flag s MINIMALDATA) 157 = _
    unfold Reads at ha hb
    simp only [opBinary, hs, ha, hb, if_true]
    rw [show binaryOp 157 a a = 1 from ofBool_yes (by simp)]
    rfl
  | within hs ha hb hc =>
    show opWithin s = _
    simp only [opWithin, hs, ha, hb, hc]
    rfl
  | hash hs ho =>
    rcases ho with ⟨rfl, rfl⟩ | ⟨rfl, rfl⟩ | ⟨rfl, rfl⟩ | ⟨rfl, rfl⟩
    all_goals cases s; subst hs; rfl
  | separator => rfl
  | multisig ho hs hx hk hn hy hd =>
    rename_i x y d keys r
    have e : exec H s op true = checkMultisig s (flag s MINIMALDATA) (decide (op = 175)) := by
      rcases ho with rfl | rfl <;> rfl
    unfold Reads at hx hy
    have e1 : s.stack[keys.length + 1]? = some y := by
      rw [hs]; simp
    have e2 : s.stack.drop (keys.length + 2) = d :: r := by
      rw [hs]
      simp [List.drop_append]
    have e3 : s.stack.length = keys.length + r.length + 3 := by
      rw [hs]; simp; omega
    rw [e]
    unfold checkMultisig
    split
    · next h => rw [hs] at h; simp at h
    next x' r' h =>
    obtain ⟨rfl, -⟩ : x' = x ∧ True := by rw [hs] at h; simp at h; exact ⟨h.1.symm, trivial⟩
    simp only [hx, hy, Int.toNat_natCast, e1]
    rw [if_neg (by omega), if_neg (by omega), if_neg (by omega), if_neg (by omega), if_neg (by omega)]
    simp only [Int.toNat_zero, List.take_zero, removeAll]
    rw [if_neg (by omega)]
    simp only [show ((0 : Int) + keys.length + 2).toNat = keys.length + 2 by omega, e2]
    rw [if_neg (by rintro ⟨a, b⟩; exact b (hd a))]
    rcases ho with rfl | rfl <;> rfl

theorem stackOp_total {H : Hashes} {s : State} {op : Nat} {l : List Data} (h : stackOp op s.stack = some l)
    (ho : 109 ≤ op ∧ op ≤ 120 ∨ 123 ≤ op ∧ op ≤ 125 ∨ op = 130) : Acts H s op { s with stack := l } := by
  have rule : ∀ {op : Nat} {ins outs rest : List Data}, StackRule op ins outs → op ≠ 117 →
      s.stack = ins.reverse ++ rest → l = outs.reverse ++ rest → Acts H s op { s with stack := l } := by
    intro op ins outs rest hr hd hs hl
    rw [hl]; exact .rule hr hd hs
  obtain rfl | rfl | rfl | rfl | rfl | rfl | rfl | rfl | rfl | rfl | rfl | rfl | rfl | rfl | rfl | rfl :
      op = 109 ∨ op = 110 ∨ op = 111 ∨ op = 112 ∨ op = 113 ∨ op = 114 ∨ op = 115 ∨ op = 116 ∨ op = 117 ∨ op = 118 ∨
      op = 119 ∨ op = 120 ∨ op = 123 ∨ op = 124 ∨ op = 125 ∨ op = 130 := by omega
  all_goals unfold stackOp at h; simp only [Nat.reduceEqDiff, if_true, if_false] at h
  all_goals try split at h
  all_goals try (cases h; done)
  all_goals injection h with h
  · rename_i hs; exact rule (.op2drop _ _) (by decide) hs h.symm
  · rename_i hs; exact rule (.op2dup _ _) (by decide) hs h.symm
  · rename_i hs; exact rule (.op3dup _ _ _) (by decide) hs h.symm
  · rename_i hs; exact rule (.op2over _ _ _ _) (by decide) hs h.symm
  · rename_i hs; exact rule (.op2rot _ _ _ _ _ _) (by decide) hs h.symm
  · rename_i hs; exact rule (.op2swap _ _ _ _) (by decide) hs h.symm
  · rename_i x r hs
    by_cases hv : castToBool x.val = true
    · rw [if_pos hv] at h; subst h
      exact .ifdup hs ((holds_iff _).1 hv)
    · rw [if_neg hv, ← hs] at h; subst h
      exact .ifnodup hs (fun e => hv ((holds_iff _).2 e))
  · subst h; exact .depth
  · rename_i x r hs
    cases r with
    | nil => subst h; exact .dropLast hs
    | cons y r => subst h; exact .dropTwo hs
  · rename_i hs; exact rule (.dup _) (by decide) hs h.symm
  · rename_i hs; exact rule (.nip _ _) (by decide) hs h.symm
  · rename_i hs; exact rule (.over _ _) (by decide) hs h.symm
  · rename_i hs; exact rule (.rot _ _ _) (by decide) hs h.symm
  · rename_i hs; exact rule (.swap _ _) (by decide) hs h.symm
  · rename_i hs; exact rule (.tuck _ _) (by decide) hs h.symm
  · rename_i hs; subst h; exact .size hs

theorem pickRoll_total {H : Hashes} {s t : State} {roll : Bool} (h : pickRoll s (flag s MINIMALDATA) roll = .next t) :
    Acts H s (if roll then 122 else 121) t := by
  unfold pickRoll at h
  split at h
  · next x y r hs =>
    simp only [] at h
    split at h
    · cases h
    · next n hn =>
      rcases ite_next h with ⟨-, h⟩ | ⟨hb, h⟩
      · exact absurd h fail_ne
      split at h
      · cases h
      · next d hd =>
        obtain ⟨hlt, hg⟩ := List.getElem?_eq_some_iff.1 hd
        have hsp : y :: r = (y :: r).take n.toNat ++ d :: (y :: r).drop (n.toNat + 1) := by
          rw [← hg, ← List.drop_eq_getElem_cons hlt, List.take_append_drop]
        have hl : ((y :: r).take n.toNat).length = n.toNat := List.length_take_of_le hlt.le
        have hn' : Reads s x ((y :: r).take n.toNat).length := by
          unfold Reads; rw [hn, hl]; congr 1; omega
        have hs' : s.stack = x :: (y :: r).take n.toNat ++ d :: (y :: r).drop (n.toNat + 1) := by
          rw [hs, List.cons_append, ← hsp]
        cases roll
        · cases h
          have := Acts.pick (H := H) hs' hn'
          rw [List.cons_append, ← hsp] at this
          exact this
        · cases h
          have := Acts.roll (H := H) hs' hn'
          rw [List.cons_append, ← List.eraseIdx_eq_take_drop_succ] at this
          exact this
  · exact absurd h fail_ne

theorem opBinary_total {H : Hashes} {s t : State} {op : Nat} (h : opBinary s (flag s MINIMALDATA) op = .next t)
    (ho : op ∈ [147, 148] ∨ 154 ≤ op ∧ op ≤ 164) : Acts H s op t := by
  unfold opBinary at h
  split at h
  · next x2 x1 r hs =>
    split at h
    · cases h
    next a ha =>
    split at h
    · cases h
    next b hb =>
    rcases ite_next h with ⟨he, h⟩ | ⟨he, h⟩
    · subst he
      rcases ite_next h with ⟨hc, h⟩ | ⟨-, h⟩
      · cases h
        have e : a = b := by
          by_contra hne
          rw [show binaryOp 157 a b = 0 from ofBool_no (by simpa using hne)] at hc
          exact absurd hc (by decide)
        subst e
        exact .numEqualVerify hs ha hb
      · exact absurd h fail_ne
    · cases h
      refine .binary hs ha hb (binary_total a b ?_)
      simp only [List.mem_cons, List.not_mem_nil, or_false] at ho ⊢
      omega
  · exact absurd h fail_ne

theorem opIf_total {H : Hashes} {s t : State} {neg : Bool} (h : opIf s true neg = .next t) :
    Acts H s (if neg then 100 else 99) t := by
  unfold opIf at h
  simp only [if_true] at h
  split at h
  · exact absurd h fail_ne
  · next x r hs =>
    cases h
    cases neg
    · cases hv : castToBool x.val
      · exact .notTaken hs (.inl ⟨rfl, (holds_not _).1 hv⟩)
      · exact .taken hs (.inl ⟨rfl, (holds_iff _).1 hv⟩)
    · cases hv : castToBool x.val
      · exact .taken hs (.inr ⟨rfl, (holds_not _).1 hv⟩)
      · exact .notTaken hs (.inr ⟨rfl, (holds_iff _).1 hv⟩)

theorem opVerify_total {H : Hashes} {s t : State} (h : opVerify s = .next t) : Acts H s 105 t := by
  unfold opVerify at h
  split at h
  · exact absurd h fail_ne
  · next x r hs =>
    rcases ite_next h with ⟨hv, h⟩ | ⟨-, h⟩
    · cases h; exact .verify hs ((holds_iff _).1 hv)
    · exact absurd h fail_ne

theorem toAltStack_total {H : Hashes} {s t : State} (h : toAltStack s = .next t) : Acts H s 107 t := by
  unfold toAltStack at h
  split at h
  · exact absurd h fail_ne
  · next hs => cases h; exact .toAlt hs

theorem fromAltStack_total {H : Hashes} {s t : State} (h : fromAltStack s = .next t) : Acts H s 108 t := by
  unfold fromAltStack at h
  split at h
  · exact absurd h fail_ne
  · next hs => cases h; exact .fromAlt hs

theorem opEqual_total {H : Hashes} {s t : State} {v : Bool} (h : opEqual s v = .next t) :
    Acts H s (if v then 136 else 135) t := by
  unfold opEqual at h
  split at h
  · next x y r hs =>
    cases v
    · simp only [Bool.false_eq_true, if_false, beq_eq_decide] at h
      cases h
      exact .equal hs
    · simp only [if_true] at h
      rcases ite_next h with ⟨he, h⟩ | ⟨-, h⟩
      · cases h; exact .equalVerify hs (by simpa using he)
      · exact absurd h fail_ne
  · exact absurd h fail_ne

theorem opUnary_total {H : Hashes} {s t : State} {op : Nat} (h : opUnary s (flag s MINIMALDATA) op = .next t)
    (ho : op ∈ [139, 140, 143, 144, 145, 146]) : Acts H s op t := by
  unfold opUnary at h
  split at h
  · exact absurd h fail_ne
  next x r hs =>
  split at h
  · cases h
  next n hn =>
  cases h
  by_cases h144 : op = 144
  · subst h144; exact .abs hs hn
  · refine .unary hs hn h144 (unary_total n ?_)
    simp only [List.mem_cons, List.not_mem_nil, or_false] at ho ⊢
    omega

theorem opWithin_total {H : Hashes} {s t : State} (h : opWithin s = .next t) : Acts H s 165 t := by
  unfold opWithin at h
  split at h
  · next hs =>
    split at h
    · cases h
    next ha =>
    split at h
    · cases h
    next hb =>
    split at h
    · cases h
    next hc =>
    cases h
    exact .within hs ha hb hc
  · exact absurd h fail_ne

theorem opHash_total {H : Hashes} {s t : State} {op : Nat} (h : opHash H s op = .next t) (ho : 166 ≤ op ∧ op ≤ 170) :
    Acts H s op t := by
  unfold opHash at h
  split at h
  · exact absurd h fail_ne
  next x r hs =>
  obtain rfl | rfl | rfl | rfl | rfl : op = 166 ∨ op = 167 ∨ op = 168 ∨ op = 169 ∨ op = 170 := by omega
  · cases h; exact .hash hs (.inl ⟨rfl, rfl⟩)
  · cases h; exact .hash hs (.inr (.inl ⟨rfl, rfl⟩))
  · cases h; exact .hash hs (.inr (.inr (.inl ⟨rfl, rfl⟩)))
  · cases h
  · cases h; exact .hash hs (.inr (.inr (.inr ⟨rfl, rfl⟩)))

theorem checkMultisig_total {H : Hashes} {s t : State} {op : Nat} (ho : op = 174 ∨ op = 175)
    (h : checkMultisig s (flag s MINIMALDATA) (decide (op = 175)) = .next t) : Acts H s op t := by
  obtain ⟨⟨a1, a2, a3, a4⟩, b1, b2, b3, b4, b5, b6, y, r, d, hy, hz, hd, hf, hst⟩ := checkMultisig_next h
  obtain ⟨x, rest, hs⟩ : ∃ x rest, s.stack = x :: rest := by
    cases e : s.stack with
    | nil => rw [e] at hy; simp at hy
    | cons x rest => exact ⟨x, rest, rfl⟩
  have hx : Reads s x (keysOf s) := by
    unfold Reads keysOf
    rw [hs]
    simp only []
    cases e : decodeScriptNumber x (flag s MINIMALDATA) with
    | ok n => rfl
    | error e' =>
      exfalso
      unfold checkMultisig at h
      rw [hs] at h
      simp only [e] at h
      cases h
  rw [hs, List.getElem?_cons_succ] at hy
  rw [hs, List.drop_succ_cons] at hd
  generalize hk : keysOf s = k at *
  obtain ⟨k, rfl⟩ := Int.eq_ofNat_of_zero_le b5
  rw [Int.toNat_natCast] at hy hd
  obtain ⟨hlt, hg⟩ := List.getElem?_eq_some_iff.1 hy
  have hsp : rest = rest.take k ++ y :: d :: r := by
    rw [← hd, ← hg, ← List.drop_eq_getElem_cons hlt, List.take_append_drop]
  have hl : (rest.take k).length = k := List.length_take_of_le hlt.le
  have hs' : s.stack = x :: rest.take k ++ y :: d :: r := by rw [hs, List.cons_append, ← hsp]
  have key := Acts.multisig (H := H) ho hs' (by rw [hl]; exact hx) (by omega) (by omega) hz hf
  have e : exec H s op true = checkMultisig s (flag s MINIMALDATA) (decide (op = 175)) := by
    rcases ho with rfl | rfl <;> rfl
  have e2 := acts_sound key
  rw [e, h] at e2
  injection e2 with e2
  rw [e2]
  exact key

theorem acts_total {H : Hashes} {s t : State} {op : Nat} (h : exec H s op true = .next t) (h1 : op ≠ 103) (h2 : op ≠ 104) :
    Acts H s op t := by
  unfold exec at h
  extract_lets at h
  rcases ite_next h with ⟨ho, h⟩ | ⟨-, h⟩
  · cases h; exact .constant ho
  rcases ite_next h with ⟨rfl, h⟩ | ⟨-, h⟩
  · cases h; exact .nop
  rcases ite_next h with ⟨-, h⟩ | ⟨-, h⟩
  · exact absurd h (checkLockTimeVerify_ne _ _ _)
  rcases ite_next h with ⟨ho, h⟩ | ⟨-, h⟩
  · rcases ite_next h with ⟨-, h⟩ | ⟨hf, h⟩
    · exact absurd h fail_ne
    · cases h; exact .upgradable ho (by simpa using hf)
  rcases ite_next h with ⟨rfl, h⟩ | ⟨-, h⟩
  · exact opIf_total h
  rcases ite_next h with ⟨rfl, h⟩ | ⟨-, h⟩
  · exact opIf_total h
  rcases ite_next h with ⟨ho, h⟩ | ⟨-, h⟩
  · exact absurd ho h1
  rcases ite_next h with ⟨ho, h⟩ | ⟨-, h⟩
  · exact absurd ho h2
  rcases ite_next h with ⟨rfl, h⟩ | ⟨-, h⟩
  · exact opVerify_total h
  rcases ite_next h with ⟨-, h⟩ | ⟨-, h⟩
  · exact absurd h fail_ne
  rcases ite_next h with ⟨rfl, h⟩ | ⟨-, h⟩
  · exact toAltStack_total h
  rcases ite_next h with ⟨rfl, h⟩ | ⟨-, h⟩
  · exact fromAltStack_total h
  rcases ite_next h with ⟨ho, h⟩ | ⟨-, h⟩
  · split at h
    · exact absurd h fail_ne
    · next hs => cases h; exact stackOp_total hs ho
  rcases ite_next h with ⟨rfl, h⟩ | ⟨-, h⟩
  · exact pickRoll_total (roll := false) h
  rcases ite_next h with ⟨rfl, h⟩ | ⟨-, h⟩
  · exact pickRoll_total (roll := true) h
  rcases ite_next h with ⟨rfl, h⟩ | ⟨-, h⟩
  · exact opEqual_total h
  rcases ite_next h with ⟨rfl, h⟩ | ⟨-, h⟩
  · exact opEqual_total h
  rcases ite_next h with ⟨ho, h⟩ | ⟨-, h⟩
  · exact opUnary_total h ho
  rcases ite_next h with ⟨ho, h⟩ | ⟨-, h⟩
  · exact opBinary_total h ho
  rcases ite_next h with ⟨rfl, h⟩ | ⟨-, h⟩
  · exact opWithin_total h
  rcases ite_next h with ⟨ho, h⟩ | ⟨-, h⟩
  · exact opHash_total h ho
  rcases ite_next h with ⟨rfl, h⟩ | ⟨-, h⟩
  · cases h; exact .separator
  rcases ite_next h with ⟨-, h⟩ | ⟨-, h⟩
  · exact absurd h (checkSig_ne _ _)
  rcases ite_next h with ⟨rfl, h⟩ | ⟨-, h⟩
  · exact checkMultisig_total (.inl rfl) h
  rcases ite_next h with ⟨rfl, h⟩ | ⟨-, h⟩
  · exact checkMultisig_total (.inr rfl) h
  · exact absurd h fail_ne

theorem entered_enter (s : State) (i : Instruction) : enter s i = entered s i := by
  unfold enter entered
  by_cases h : opOf i > 96
  · rw [if_pos h, if_pos h]
  · rw [if_neg h, if_neg h, add_zero]

/-- An instruction within the limits is pushed, executed, or skipped. -/
theorem step_dispatch {H : Hashes} {s t : State} {i : Instruction} (hi : s.script[s.pc]? = some i) :
    step H s = .next t ↔ Admitted s i ∧ dispatch H (entered s i) i = .next t := by
  rw [step_eq, hi]
  simp only []
  unfold Admitted
  rw [entered_enter]
  constructor
  · intro h
    rcases ite_next h with ⟨-, h⟩ | ⟨h1, h⟩
    · exact absurd h fail_ne
    rcases ite_next h with ⟨-, h⟩ | ⟨h2, h⟩
    · exact absurd h fail_ne
    refine ⟨⟨by omega, fun _ => by omega, fun hd => ?_⟩, h⟩
    unfold dispatch at h
    simp only [] at h
    rw [if_pos ((disabled_iff _).2 hd)] at h
    exact absurd h fail_ne
  · rintro ⟨⟨h1, h2, -⟩, h⟩
    rw [if_neg (by omega), if_neg (by rintro ⟨a, b⟩; have := h2 a; omega)]
    exact h

/-- C123. What one instruction does: it passes exactly if it is within the limits and one of the cases of `Does` applies,
and leaves the state that case says. -/
theorem C123_step (H : Hashes) (s t : State) (i : Instruction) (hi : s.script[s.pc]? = some i) :
    step H s = .next t ↔ Admitted s i ∧ Does H s i t := by
  rw [step_dispatch hi]
  refine and_congr_right (fun had => ?_)
  have hnd : opOf i ∉ disabled := fun h => had.2.2 ((disabled_iff _).1 h)
  have hx : ((!(entered s i).vfExec.contains false) = true) ↔ Executing s := executing_iff (entered s i)
  unfold dispatch
  extract_lets op fExec pu
  have hop : op = opOf i := rfl
  have hfe : fExec = true ↔ Executing s := hx
  have hpu : pu = .next ((entered s i).push (pushed i)) := rfl
  have hfl : flag (entered s i) MINIMALDATA = flag s MINIMALDATA := rfl
  clear_value op fExec pu
  subst hpu hop
  rw [if_neg hnd, hfl]
  have hpush : dataLen i = 0 ∧ pushed i = ⟨.bytearray, []⟩ ∨ ∃ d, i.data = some d ∧ d.val ≠ [] ∧ pushed i = d := by
    unfold dataLen pushed
    cases i.data with
    | none => exact .inl ⟨rfl, rfl⟩
    | some d =>
      by_cases h : d.val = []
      · simp only [h, if_true]; exact .inl ⟨rfl, rfl⟩
      · exact .inr ⟨d, rfl, h, if_neg h⟩
  constructor
  · intro h
    rcases ite_next h with ⟨⟨hf, hle⟩, h⟩ | ⟨hnp, h⟩
    · have hmin : (flag s MINIMALDATA = true → i.isMinimalPush = .ok true) ∧ t = (entered s i).push (pushed i) := by
        by_cases hm : flag s MINIMALDATA = true
        · simp only [hm, if_true] at h
          split at h
          · cases h
          · cases h
          · next hmin => exact ⟨fun _ => hmin, by cases h; rfl⟩
        · simp only [hm] at h
          exact ⟨fun hh => absurd hh hm, by cases h; rfl⟩
      obtain ⟨hmin, rfl⟩ := hmin
      rcases hpush with ⟨h0, e⟩ | ⟨d, h0, h1, e⟩
      · rw [e]; exact .pushNothing (hfe.1 hf) hle h0 hmin
      · rw [e]; exact .push (hfe.1 hf) hle h0 h1 hmin
    rcases ite_next h with ⟨hc, h⟩ | ⟨hc, h⟩
    · by_cases h103 : opOf i = 103
      · rw [h103] at h
        have h : opElse (entered s i) = .next t := h
        unfold opElse at h
        split at h
        · exact absurd h fail_ne
        · next hv => cases h; exact .otherwise h103 hv
      by_cases h104 : opOf i = 104
      · rw [h104] at h
        have h : opEndif (entered s i) = .next t := h
        unfold opEndif at h
        split at h
        · exact absurd h fail_ne
        · next hv => cases h; exact .endif h104 hv
      cases hfx : fExec with
      | true =>
        rw [hfx] at h hfe hnp
        exact .acts (hfe.1 rfl) (by by_contra hle; exact hnp ⟨rfl, by omega⟩) (acts_total h h103 h104)
      | false =>
        rw [hfx] at h hfe hc
        have hne : ¬ Executing s := fun he => by cases hfe.2 he
        have hr : 99 ≤ opOf i ∧ opOf i ≤ 104 := by
          rcases hc with hc | hc
          · cases hc
          · exact hc
        obtain e | e | e | e : opOf i = 99 ∨ opOf i = 100 ∨ opOf i = 101 ∨ opOf i = 102 := by omega
        · rw [e] at h; cases h; exact .skipIf hne (.inl e)
        · rw [e] at h; cases h; exact .skipIf hne (.inr e)
        · rw [e] at h; cases h
        · rw [e] at h; cases h
    · cases h
      exact .skip (fun he => hc (.inl (hfe.2 he))) (fun hr => hc (.inr hr))
  · intro h
    cases h with
    | pushNothing he hle h0 hmin =>
      rw [if_pos ⟨hfe.2 he, hle⟩]
      rcases hpush with ⟨-, e⟩ | ⟨d, h1, h2, e⟩
      · rw [e]
        by_cases hm : flag s MINIMALDATA = true
        · simp only [hm, if_true, hmin hm]; rfl
        · rw [if_neg hm]; rfl
      · unfold dataLen at h0; rw [h1] at h0; exact absurd (List.length_eq_zero_iff.1 h0) h2
    | push he hle h0 h1 hmin =>
      rw [if_pos ⟨hfe.2 he, hle⟩]
      rcases hpush with ⟨h2, -⟩ | ⟨d, h2, -, e⟩
      · unfold dataLen at h2; rw [h0] at h2; exact absurd (List.length_eq_zero_iff.1 h2) h1
      · rw [h0] at h2; cases h2
        rw [e]
        by_cases hm : flag s MINIMALDATA = true
        · simp only [hm, if_true, hmin hm]; rfl
        · rw [if_neg hm]; rfl
    | skip he ho =>
      rw [if_neg (fun h => he (hfe.1 h.1)), if_neg (by rintro (h | h); exacts [he (hfe.1 h), ho h])]
    | skipIf he ho =>
      have hf : fExec = false := by cases fExec; rfl; exact absurd (hfe.1 rfl) he
      rw [if_neg (fun h => he (hfe.1 h.1)), if_pos (.inr (by omega)), hf]
      rcases ho with e | e <;> (rw [e]; rfl)
    | otherwise ho hv =>
      rw [if_neg (by omega), if_pos (.inr (by omega)), ho]
      show opElse (entered s i) = _
      unfold opElse
      rw [show (entered s i).vfExec = s.vfExec from rfl, hv]
    | endif ho hv =>
      rw [if_neg (by omega), if_pos (.inr (by omega)), ho]
      show opEndif (entered s i) = _
      unfold opEndif
      rw [show (entered s i).vfExec = s.vfExec from rfl, hv]
    | acts he ho ha =>
      rw [if_neg (by omega), if_pos (.inl (hfe.2 he)), hfe.2 he]
      exact acts_sound ha

/-- C123. For every instruction there is either exactly one thing it does, or exactly one reason to fail. -/
theorem C123_either (H : Hashes) (s : State) (i : Instruction) (hi : s.script[s.pc]? = some i) :
    (∃ t, Admitted s i ∧ Does H s i t ∧ (∀ t', Does H s i t' → t' = t) ∧ ∀ e, ¬ Reason s i e) ∨
    (∃ e, Reason s i e ∧ (∀ e', Reason s i e' → e' = e) ∧ ∀ t, ¬ (Admitted s i ∧ Does H s i t)) := by
  rcases step_fails H s i hi with ⟨t, ht⟩ | ⟨e, he, hr⟩
  · obtain ⟨ha, hd⟩ := (C123_step H s t i hi).1 ht
    refine .inl ⟨t, ha, hd, fun t' h' => ?_, (C87_passes H s i hi).1 ⟨t, ht⟩⟩
    have h2 := (C123_step H s t' i hi).2 ⟨ha, h'⟩
    rw [ht] at h2
    injection h2 with h2
    exact h2.symm
  · refine .inr ⟨e, hr, fun e' h' => C87_unique s i hi e' e h' hr, fun t h => ?_⟩
    exact (C87_passes H s i hi).1 ⟨t, (C123_step H s t i hi).2 h⟩ e hr

theorem walk_runs {H : Hashes} {s t : State} (h : Walk H s t) : ∃ tr, Runs H s tr t ∧ ¬ t.pc < t.script.length := by
  induction h with
  | done h => exact ⟨[], .nil _, by omega⟩
  | more hi ha hd _ ih =>
    obtain ⟨tr, h1, h2⟩ := ih
    exact ⟨_, .cons hi ((C123_step H _ _ _ hi).2 ⟨ha, hd⟩) h1, h2⟩

theorem runs_walk {H : Hashes} {s t : State} {tr : List (State × Instruction)} (h : Runs H s tr t)
    (hn : ¬ t.pc < t.script.length) : Walk H s t := by
  induction h with
  | nil s => exact .done (by omega)
  | cons hi hs _ ih =>
    obtain ⟨ha, hd⟩ := (C123_step H _ _ _ hi).1 hs
    exact .more hi ha hd (ih hn)

/-- C123. A script passes, and leaves this state, exactly if its instructions say so one after the other. -/
theorem C123_evaluate (H : Hashes) (s t : State) : evaluate H s = (.ok true, t) ↔ Passes H s t := by
  rw [evaluate_ok]
  unfold Passes
  refine and_congr_right (fun _ => and_congr_left (fun _ => ⟨fun h => ?_, fun h => ?_⟩))
  · obtain ⟨tr, h1, h2⟩ := loop_runs h t rfl
    exact runs_walk h1 h2
  · obtain ⟨tr, h1, h2⟩ := walk_runs h
    exact runs_loop h1 h2

theorem walk_flags {H : Hashes} {s t : State} (h : Walk H s t) : t.flags = s.flags := by
  induction h with
  | done => rfl
  | more hi ha hd _ ih =>
    obtain ⟨j, hj⟩ := step_next ((C123_step H _ _ _ hi).2 ⟨ha, hd⟩)
    rw [ih, hj.flags]

/-- C123. `verify` returns True exactly if the two scripts agree, and P2SH is not asked for. -/
theorem C123_verify (H : Hashes) (b u : State) (sig pub : Script) (flags : Nat) :
    verify H b sig pub flags = (.ok true, u) ↔ Agrees H sig pub flags u ∧ flags.testBit 0 = false := by
  rw [verify_true]
  unfold Agrees
  simp only [C123_evaluate, holds_iff]
  tauto

/-- C123. `verify` raises exactly in the cases listed. -/
theorem C123_raises (H : Hashes) (b : State) (sig pub : Script) (flags : Nat) (e : Err) :
    (∃ u, verify H b sig pub flags = (.error e, u)) ↔ Breaks H sig pub flags e := by
  have ev : ∀ (s : State) (e : Err) (t : State), evaluate H s = (.error e, t) → Script.bytesOf s.script = .error e := by
    intro s e t h
    unfold evaluate at h
    cases hb : Script.bytesOf s.script with
    | error x => rw [hb] at h; cases h; rfl
    | ok b =>
      rw [hb] at h
      simp only [] at h
      split at h
      · cases h
      · split at h
        · cases h
        · cases h
        · split at h
          · cases h
          · split at h <;> cases h
  have ev2 : ∀ (s : State) (e : Err), Script.bytesOf s.script = .error e → evaluate H s = (.error e, s) := by
    intro s e h
    unfold evaluate
    rw [h]
  rw [verify_eq]
  constructor
  · rintro ⟨u, h⟩
    by_cases hp : flags.testBit 5 = true ∧ ¬ sig.isPushOnly = true
    · rw [if_pos hp] at h; cases h
    rw [if_neg hp] at h
    have hp' : flags.testBit 5 = true → sig.isPushOnly = true := by
      intro h5; by_contra hc; exact hp ⟨h5, hc⟩
    split at h
    · next e' t' h1 => cases h; exact .sig hp' (ev _ _ _ h1)
    · cases h
    next t h1 =>
    have h1' := (C123_evaluate H _ _).1 h1
    split at h
    · next e' t' h2 => cases h; exact .pub hp' h1' (ev _ _ _ h2)
    · cases h
    next w h2 =>
    have h2' := (C123_evaluate H _ _).1 h2
    split at h
    · cases h
    next x r hs =>
    split at h
    · cases h
    next hc =>
    split at h
    · next hf =>
      cases h
      refine .p2sh ⟨hp', t, h1', h2', x, r, hs, (holds_iff _).1 (by simpa using hc)⟩ ?_
      unfold flag at hf
      rw [walk_flags h2'.2.1] at hf
      exact hf
    · cases h
  · intro h
    cases h with
    | sig hp h1 =>
      rw [if_neg (fun h => h.2 (hp h.1)), ev2 _ _ h1]
      exact ⟨_, rfl⟩
    | pub hp h1 h2 =>
      rename_i t
      have h2' := ev2 (start pub t.stack flags) _ h2
      rw [if_neg (fun h => h.2 (hp h.1)), (C123_evaluate H _ _).2 h1]
      simp only [h2']
      exact ⟨_, rfl⟩
    | p2sh ha hf =>
      rename_i u
      obtain ⟨hp, t, h1, h2, x, r, hs, hv⟩ := ha
      rw [if_neg (fun h => h.2 (hp h.1)), (C123_evaluate H _ _).2 h1]
      simp only [(C123_evaluate H _ _).2 h2, hs]
      rw [if_neg (by rw [(holds_iff _).2 hv]; decide), if_pos]
      · exact ⟨_, rfl⟩
      · unfold flag
        rw [walk_flags h2.2.1]
        exact hf

/-- OP_3 OP_2 OP_ADD: the instruction at place 2 is admitted, and adds. -/
example : Admitted { about 147 [num 2, num 3] with flags := 64 } (about 147 [num 2, num 3]).script[0] ∧
    Acts Hashes.toy (about 147 [num 2, num 3]) 147 { about 147 [num 2, num 3] with stack := [number 5] } :=
  ⟨by unfold Admitted IsDisabled; decide, .binary (x := num 3) (y := num 2) (a := 3) (b := 2) rfl (by unfold Reads; decide)
    (by unfold Reads; decide) (.add 3 2)⟩

/-- OP_1 agrees with OP_NOP; if P2SH is asked for, `verify` raises. -/
example : (∃ u, Agrees Hashes.toy ⟨.generic, (about 81 []).script⟩ ⟨.generic, (about 97 []).script⟩ 0 u) ∧
    Breaks Hashes.toy ⟨.generic, (about 81 []).script⟩ ⟨.generic, (about 97 []).script⟩ 1 .attributeError := by
  constructor
  · have h : (verify Hashes.toy {} ⟨.generic, (about 81 []).script⟩ ⟨.generic, (about 97 []).script⟩ 0).1 = .ok true := by
      decide +kernel
    exact ⟨_, ((C123_verify Hashes.toy {} _ _ _ 0).1 (Prod.ext h rfl)).1⟩
  · have h : (verify Hashes.toy {} ⟨.generic, (about 81 []).script⟩ ⟨.generic, (about 97 []).script⟩ 1).1 =
        .error .attributeError := by
      decide +kernel
    exact (C123_raises Hashes.toy {} _ _ 1 _).1 ⟨_, Prod.ext h rfl⟩

end Interpreter
end Bitforge
