import Verif.Proofs.Reference
import Verif.Proofs.InterpFlow

/-! # C80: what does not fail in the interpreter does not fail in the reference client -/

namespace Bitforge
open Spec
namespace Interpreter

/-- The elements of a stack as byte strings. -/
def vals (l : List Data) : List Bytes := l.map (·.val)

/-- The wire forms of the instructions from position `n` on. -/
def wiresFrom (is : List Instruction) (n : Nat) : List WireInstr := (is.drop n).map Instruction.wire

/-- A state of the interpreter, as one of the reference client. -/
def view (s : State) : Ref.St where
  stack := vals s.stack
  alt := vals s.altstack
  cond := s.vfExec
  ops := s.nopCount.toNat
  code := wiresFrom s.script s.pbegincodehash

theorem vals_cons (x : Data) (l : List Data) : vals (x :: l) = x.val :: vals l := rfl
theorem vals_nil : vals [] = [] := rfl
theorem vals_length (l : List Data) : (vals l).length = l.length := by simp [vals]

theorem num_val (n : Int) : (num n).val = Ref.serialize n := (serialize_eq n).symm
theorem boolBytes_val (b : Bool) : (boolBytes b).val = Ref.flagBytes b := by cases b <;> rfl

/-- The element is a number in the fewest bytes, or too long for a number. -/
def Fits (d : Data) : Prop := 4 < d.val.length ∨ Ref.minimalNumber d.val.reverse = true

theorem number_fits {d : Data} {n : Int} (h : decodeScriptNumber d = .ok n) (hf : Fits d) (m : Bool) :
    Ref.number m d.val = some n := by
  have hn := number_of_decode h
  cases m with
  | false => exact hn
  | true =>
    unfold Ref.number at hn ⊢
    by_cases hl : d.val.length > 4
    · rw [if_pos hl] at hn; cases hn
    · rw [if_neg hl] at hn ⊢
      rcases hf with hf | hf
      · exact absurd hf hl
      · rw [if_neg (by simp)] at hn
        rw [hf, if_neg (by simp)]
        exact hn

/-- The opcode is executed in the same way as by the reference client: not OP_DROP with something left below, not OP_ABS of
a number other than 1 and -1, not a decision on a number that starts with a zero byte, not OP_WITHIN of numbers that are
not minimal when they have to be. -/
def Faithful (s : State) (op : Nat) : Prop :=
  (op = 117 → s.stack.length ≤ 1) ∧
  (op = 144 → ∀ x r, s.stack = x :: r → scriptValue x.val = 1 ∨ scriptValue x.val = -1) ∧
  (op = 99 ∨ op = 100 ∨ op = 115 → ∀ x r, s.stack = x :: r → x.val.head? = some 0 → Ref.truth x.val = false) ∧
  (op = 165 → s.flags.testBit 6 = true → ∀ d ∈ s.stack.take 3, Fits d)

theorem number_value {m : Bool} {b : Bytes} {n : Int} (h : Ref.number m b = some n) : n = scriptValue b := by
  unfold Ref.number at h
  split at h
  · cases h
  · split at h
    · cases h
    · cases h; rfl

theorem unary_eq {op : Nat} {n : Int} (ho : op ∈ [139, 140, 143, 144, 145, 146]) (h : op = 144 → n = 1 ∨ n = -1) :
    Ref.unary op n = some (unaryOp op n) := by
  simp only [List.mem_cons, List.not_mem_nil, or_false] at ho
  rcases ho with rfl | rfl | rfl | rfl | rfl | rfl
  · rfl
  · rfl
  · rfl
  · rcases h rfl with rfl | rfl <;> rfl
  · rfl
  · rfl

theorem binary_eq {op : Nat} {a b : Int} (ho : op ∈ [147, 148] ∨ 154 ≤ op ∧ op ≤ 164) :
    Ref.binary op a b = some (binaryOp op a b) := by
  have ho : op = 147 ∨ op = 148 ∨ op = 154 ∨ op = 155 ∨ op = 156 ∨ op = 157 ∨ op = 158 ∨ op = 159 ∨ op = 160 ∨ op = 161 ∨
      op = 162 ∨ op = 163 ∨ op = 164 := by
    simp only [List.mem_cons, List.not_mem_nil, or_false] at ho; omega
  rcases ho with rfl | rfl | rfl | rfl | rfl | rfl | rfl | rfl | rfl | rfl | rfl | rfl | rfl
  any_goals rfl
  · show some _ = some (min a b)
    congr 1
    split <;> omega
  · show some _ = some (max a b)
    congr 1
    split <;> omega

theorem hash_eq {H : Hashes} {op : Nat} {b : Bytes} {d : Data} (ho : 166 ≤ op ∧ op ≤ 170) (h : hashOp H op b = .ok d) :
    Ref.hash H op b = some d.val := by
  have ho : op = 166 ∨ op = 167 ∨ op = 168 ∨ op = 169 ∨ op = 170 := by omega
  rcases ho with rfl | rfl | rfl | rfl | rfl <;> cases h <;> rfl

theorem rearrange_eq {s : State} {op : Nat} {st : List Data} (hf : Faithful s op)
    (ho : 109 ≤ op ∧ op ≤ 120 ∨ 123 ≤ op ∧ op ≤ 125 ∨ op = 130) (h : stackOp op s.stack = some st) :
    Ref.rearrange op (vals s.stack) = some (vals st) := by
  have ho : op = 109 ∨ op = 110 ∨ op = 111 ∨ op = 112 ∨ op = 113 ∨ op = 114 ∨ op = 115 ∨ op = 116 ∨ op = 117 ∨ op = 118 ∨
      op = 119 ∨ op = 120 ∨ op = 123 ∨ op = 124 ∨ op = 125 ∨ op = 130 := by omega
  obtain ⟨f1, _, f3, _⟩ := hf
  generalize hs : s.stack = stack at h f1 f3
  rcases ho with rfl | rfl | rfl | rfl | rfl | rfl | rfl | rfl | rfl | rfl | rfl | rfl | rfl | rfl | rfl | rfl
  · match stack, h with
    | _ :: _ :: r, h => cases h; rfl
  · match stack, h with
    | _ :: _ :: r, h => cases h; rfl
  · match stack, h with
    | _ :: _ :: _ :: r, h => cases h; rfl
  · match stack, h with
    | _ :: _ :: _ :: _ :: r, h => cases h; rfl
  · match stack, h with
    | _ :: _ :: _ :: _ :: _ :: _ :: r, h => cases h; rfl
  · match stack, h with
    | _ :: _ :: _ :: _ :: r, h => cases h; rfl
  · match stack, h with
    | x :: r, h =>
      cases h
      show some _ = some _
      rw [← cast_eq_truth (f3 (by simp) x r rfl)]
      split <;> rfl
  · cases h
    show some _ = some ((num _).val :: vals _)
    rw [num_val, vals_length]
  · match stack, h with
    | x :: r, h =>
      cases h
      have : r = [] := by
        have := f1 rfl
        simp at this
        exact this
      subst this
      rfl
  · match stack, h with
    | _ :: r, h => cases h; rfl
  · match stack, h with
    | _ :: _ :: r, h => cases h; rfl
  · match stack, h with
    | _ :: _ :: r, h => cases h; rfl
  · match stack, h with
    | _ :: _ :: _ :: r, h => cases h; rfl
  · match stack, h with
    | _ :: _ :: r, h => cases h; rfl
  · match stack, h with
    | _ :: _ :: r, h => cases h; rfl
  · match stack, h with
    | x :: r, h =>
      cases h
      show some _ = some ((num _).val :: vals _)
      rw [num_val]
      rfl

theorem stack_eq {s : State} {l : List Data} (h : s.stack = l) : (view s).stack = vals l := by rw [← h]; rfl

theorem view_eq {s t : State} {st : List Data} (a : t.vfExec = s.vfExec) (b : t.altstack = s.altstack)
    (c : t.script = s.script) (d : t.pbegincodehash = s.pbegincodehash) (e : t.stack = st) :
    view t = { view s with stack := vals st, ops := t.nopCount.toNat } := by
  unfold view
  rw [a, b, c, d, e]

theorem multisig_code {s t : State} {m v : Bool} (h : checkMultisig s m v = .next t) :
    t.pbegincodehash = s.pbegincodehash := by
  unfold checkMultisig at h
  split at h
  · exact absurd h fail_ne
  · split at h
    · cases h
    · simp only [] at h
      rcases ite_next h with ⟨_, h⟩ | ⟨_, h⟩
      · exact absurd h fail_ne
      rcases ite_next h with ⟨_, h⟩ | ⟨_, h⟩
      · exact absurd h fail_ne
      rcases ite_next h with ⟨_, h⟩ | ⟨_, h⟩
      · exact absurd h fail_ne
      split at h
      · cases h
      split at h
      · cases h
      rcases ite_next h with ⟨_, h⟩ | ⟨_, h⟩
      · exact absurd h fail_ne
      rcases ite_next h with ⟨_, h⟩ | ⟨_, h⟩
      · exact absurd h fail_ne
      split at h
      · cases h
      rcases ite_next h with ⟨_, h⟩ | ⟨_, h⟩
      · cases h
      split at h
      · exact absurd h fail_ne
      rcases ite_next h with ⟨_, h⟩ | ⟨_, h⟩
      · exact absurd h fail_ne
      rcases ite_next h with ⟨_, h⟩ | ⟨_, h⟩
      · cases h; rfl
      · cases h; rfl

theorem multisig_sound {C : Ref.Checker} {s t : State} {op : Nat} {v : Bool} (hop : op = if v then 175 else 174)
    (hn : 0 ≤ s.nopCount) (h : checkMultisig s (flag s MINIMALDATA) v = .next t) :
    (match (view s).stack with
    | [] => none
    | x :: r =>
      match Ref.number (s.flags.testBit 6) x with
      | none => none
      | some n =>
        if n < 0 ∨ n > 20 then none
        else
          let s' := { view s with ops := (view s).ops + n.toNat }
          if s'.ops > 201 then none
          else match r.drop n.toNat with
            | [] => none
            | y :: r' =>
              match Ref.number (s.flags.testBit 6) y with
              | none => none
              | some m =>
                if m < 0 ∨ m > n then none
                else match r'.drop m.toNat with
                  | [] => none
                  | dummy :: r'' =>
                    let sigs := r'.take m.toNat
                    match Ref.multisig (C.sig s'.code sigs) sigs (r.take n.toNat) with
                    | none => none
                    | some ok =>
                      if s.flags.testBit 4 ∧ dummy ≠ [] then none
                      else Ref.result (decide (op = 175)) ok s' r'') = some (view t) := by
  obtain ⟨⟨a1, -⟩, b, c, d, e, f, g, y, r, dummy, h1, h2, h3, h4, h5⟩ := checkMultisig_next h
  have hk : ∃ x rest, s.stack = x :: rest ∧ decodeScriptNumber x (s.flags.testBit 6) = .ok (keysOf s) := by
    unfold checkMultisig at h
    split at h
    · exact absurd h fail_ne
    · next x rest hst =>
      split at h
      · cases h
      · next keys hk =>
        refine ⟨x, rest, hst, ?_⟩
        rw [show keysOf s = keys by unfold keysOf; simp only [hst, hk]]
        exact hk
  obtain ⟨x, rest, hs, hx⟩ := hk
  rw [stack_eq hs]
  simp only [vals_cons]
  rw [number_of_decode hx]
  simp only []
  rw [if_neg (by omega)]
  have hops : (view s).ops + (keysOf s).toNat = t.nopCount.toNat := by
    show s.nopCount.toNat + _ = _
    omega
  rw [hops, if_neg (by omega)]
  rw [hs, List.getElem?_cons_succ] at h1
  rw [hs, List.drop_succ_cons] at h3
  have hd : rest.drop (keysOf s).toNat = y :: dummy :: r := by
    rw [List.drop_eq_getElem?_toList_append, h1, h3]
    rfl
  have hd' : (vals rest).drop (keysOf s).toNat = y.val :: dummy.val :: vals r := by
    unfold vals
    rw [← List.map_drop, hd]
    rfl
  rw [hd']
  simp only []
  rw [show Ref.number (s.flags.testBit 6) y.val = some 0 from number_of_decode h2]
  simp only []
  rw [if_neg (by omega)]
  simp only [Int.toNat_zero, List.drop_zero, List.take_zero, Ref.multisig]
  rw [if_neg (by rintro ⟨p, q⟩; exact q (h4 p))]
  cases v with
  | true =>
    have hop : op = 175 := hop
    subst hop
    rw [view_eq b c a1 (multisig_code h) h5]
    rfl
  | false =>
    have hop : op = 174 := hop
    subst hop
    rw [view_eq b c a1 (multisig_code h) h5]
    rfl

/-- An executed opcode. -/
theorem exec_sound {H : Hashes} {C : Ref.Checker} {s t : State} {op : Nat} (hf : Faithful s op) (hn : 0 ≤ s.nopCount)
    (h : exec H s op true = .next t) :
    Ref.exec H C s.flags op true (wiresFrom s.script s.pc) (view s) = some (view t) := by
  unfold exec at h
  extract_lets minimal at h
  have hmin : minimal = s.flags.testBit 6 := rfl
  clear_value minimal
  subst hmin
  unfold Ref.exec
  extract_lets minimal
  have hmin : minimal = s.flags.testBit 6 := rfl
  clear_value minimal
  subst hmin
  rcases ite_next h with ⟨c, h⟩ | ⟨n1, h⟩
  · cases h
    rcases c with rfl | c
    · rw [if_pos rfl, ← num_val]
      rfl
    · rw [if_neg (by omega), if_pos c, ← num_val]
      rfl
  rw [if_neg (by omega), if_neg (by omega)]
  rcases ite_next h with ⟨c, h⟩ | ⟨n2, h⟩
  · cases h
    rw [if_pos c]
  rw [if_neg n2]
  rcases ite_next h with ⟨c, h⟩ | ⟨n3, h⟩
  · exact absurd h (checkLockTimeVerify_ne _ _ _)
  rw [if_neg n3]
  rcases ite_next h with ⟨c, h⟩ | ⟨n4, h⟩
  · rw [if_pos c]
    rcases ite_next h with ⟨c', h⟩ | ⟨c', h⟩
    · exact absurd h fail_ne
    · cases h
      exact if_neg c'
  rw [if_neg n4]
  rcases ite_next h with ⟨c, h⟩ | ⟨n5, h⟩
  · subst c
    rw [if_pos (by simp), if_pos rfl]
    unfold opIf at h
    simp only [if_true] at h
    split at h
    · exact absurd h fail_ne
    · next x r hs =>
      cases h
      rw [stack_eq hs]
      simp only [vals_cons]
      rw [← cast_eq_truth (hf.2.2.1 (by simp) x r hs)]
      simp [view]
  rcases ite_next h with ⟨c, h⟩ | ⟨n6, h⟩
  · subst c
    rw [if_pos (by simp), if_pos rfl]
    unfold opIf at h
    simp only [if_true] at h
    split at h
    · exact absurd h fail_ne
    · next x r hs =>
      cases h
      rw [stack_eq hs]
      simp only [vals_cons]
      rw [← cast_eq_truth (hf.2.2.1 (by simp) x r hs)]
      simp [view]
  rw [if_neg (by omega)]
  rcases ite_next h with ⟨c, h⟩ | ⟨n7, h⟩
  · rw [if_pos c]
    unfold opElse at h
    split at h
    · exact absurd h fail_ne
    · next x r hs =>
      cases h
      show (match s.vfExec with | [] => none | b :: bs => _) = _
      rw [hs]
      rfl
  rw [if_neg n7]
  rcases ite_next h with ⟨c, h⟩ | ⟨n8, h⟩
  · rw [if_pos c]
    unfold opEndif at h
    split at h
    · exact absurd h fail_ne
    · next x r hs =>
      cases h
      show (match s.vfExec with | [] => none | b :: bs => _) = _
      rw [hs]
      rfl
  rw [if_neg n8]
  rcases ite_next h with ⟨c, h⟩ | ⟨n9, h⟩
  · rw [if_pos c]
    unfold opVerify at h
    split at h
    · exact absurd h fail_ne
    · next x r hs =>
      rcases ite_next h with ⟨c', h⟩ | ⟨c', h⟩
      · cases h
        rw [stack_eq hs]
        simp only [vals_cons]
        rw [if_pos (truth_of_cast c')]
        rfl
      · exact absurd h fail_ne
  rw [if_neg n9]
  rcases ite_next h with ⟨c, h⟩ | ⟨n10, h⟩
  · exact absurd h fail_ne
  rcases ite_next h with ⟨c, h⟩ | ⟨n11, h⟩
  · rw [if_pos c]
    unfold toAltStack at h
    split at h
    · exact absurd h fail_ne
    · next x r hs =>
      cases h
      rw [stack_eq hs]
      rfl
  rw [if_neg n11]
  rcases ite_next h with ⟨c, h⟩ | ⟨n12, h⟩
  · rw [if_pos c]
    unfold fromAltStack at h
    split at h
    · exact absurd h fail_ne
    · next x r hs =>
      cases h
      rw [show (view s).alt = vals (x :: r) by rw [← hs]; rfl]
      rfl
  rw [if_neg n12]
  rcases ite_next h with ⟨c, h⟩ | ⟨n13, h⟩
  · rw [if_neg (by omega), if_neg (by omega), if_neg (by simp; omega), if_neg (by simp; omega), if_neg (by omega),
      if_neg (by omega), if_neg (by omega), if_neg (by omega), if_neg (by omega)]
    split at h
    · exact absurd h fail_ne
    · next st hst =>
      cases h
      show (Ref.rearrange op (vals s.stack)).map _ = _
      rw [rearrange_eq hf c hst]
      rfl
  have pick : ∀ roll : Bool, op = (if roll then 122 else 121) → pickRoll s (s.flags.testBit 6) roll = .next t →
      (match (view s).stack with
      | x :: y :: r =>
        match Ref.number (s.flags.testBit 6) x with
        | none => none
        | some n =>
          if n < 0 then none
          else match (y :: r)[n.toNat]? with
            | none => none
            | some d => some { view s with stack := d :: if op = 122 then (y :: r).eraseIdx n.toNat else y :: r }
      | _ => none) = some (view t) := by
    intro roll hop h
    unfold pickRoll at h
    split at h
    · next x y r hs =>
      rw [stack_eq hs]
      simp only [vals_cons]
      simp only [] at h
      split at h
      · cases h
      · next n hd =>
        rw [number_of_decode hd]
        simp only []
        rcases ite_next h with ⟨c', h⟩ | ⟨c', h⟩
        · exact absurd h fail_ne
        · rw [if_neg (by omega)]
          split at h
          · cases h
          · next d hx =>
            cases h
            have e : (y.val :: vals r)[n.toNat]? = some d.val := by
              rw [← vals_cons]
              unfold vals
              rw [List.getElem?_map, hx]
              rfl
            rw [e]
            cases roll with
            | true =>
              have hop : op = 122 := hop
              subst hop
              show some _ = some _
              have : (y.val :: vals r).eraseIdx n.toNat = vals ((y :: r).eraseIdx n.toNat) := by
                rw [← vals_cons]
                unfold vals
                rw [List.eraseIdx_map]
              simp only [if_true, this]
              rfl
            | false =>
              have hop : op = 121 := hop
              subst hop
              rfl
    · exact absurd h fail_ne
  rcases ite_next h with ⟨c, h⟩ | ⟨n14, h⟩
  · rw [if_pos (.inl c)]
    exact pick false c h
  rcases ite_next h with ⟨c, h⟩ | ⟨n15, h⟩
  · rw [if_pos (.inr c)]
    exact pick true c h
  rw [if_neg (by omega)]
  have equal : ∀ v : Bool, op = (if v then 136 else 135) → opEqual s v = .next t →
      (match (view s).stack with
      | b :: a :: r => Ref.result (decide (op = 136)) (a == b) (view s) r
      | _ => none) = some (view t) := by
    intro v hop h
    unfold opEqual at h
    split at h
    · next x y r hs =>
      rw [stack_eq hs]
      simp only [vals_cons]
      cases v with
      | true =>
        simp only [if_true] at h hop
        rcases ite_next h with ⟨c', h⟩ | ⟨c', h⟩
        · cases h
          rw [c', hop]
          rfl
        · exact absurd h fail_ne
      | false =>
        simp only [Bool.false_eq_true, if_false] at h hop
        cases h
        subst hop
        simp only [Ref.result, view, vals_cons, boolBytes_val]
        rfl
    · exact absurd h fail_ne
  rcases ite_next h with ⟨c, h⟩ | ⟨n16, h⟩
  · rw [if_pos (.inl c)]
    exact equal false c h
  rcases ite_next h with ⟨c, h⟩ | ⟨n17, h⟩
  · rw [if_pos (.inr c)]
    exact equal true c h
  rw [if_neg (by omega)]
  rcases ite_next h with ⟨c, h⟩ | ⟨n18, h⟩
  · rw [if_pos c]
    unfold opUnary at h
    split at h
    · exact absurd h fail_ne
    · next x r hs =>
      split at h
      · cases h
      · next n hd =>
        cases h
        rw [stack_eq hs]
        simp only [vals_cons]
        have hnum := number_of_decode hd
        rw [hnum]
        simp only []
        rw [unary_eq c]
        · simp only [Option.map_some, view, vals_cons, num_val]
        · intro h144
          rw [number_value hnum]
          exact hf.2.1 h144 x r hs
  rw [if_neg n18]
  rcases ite_next h with ⟨c, h⟩ | ⟨n19, h⟩
  · rw [if_pos c]
    unfold opBinary at h
    split at h
    · next y x r hs =>
      split at h
      · cases h
      · next a ha =>
        split at h
        · cases h
        · next b hb =>
          rw [stack_eq hs]
          simp only [vals_cons]
          rw [number_of_decode ha, number_of_decode hb]
          simp only []
          rw [binary_eq c]
          simp only []
          simp only [] at h
          rcases ite_next h with ⟨c', h⟩ | ⟨c', h⟩
          · rcases ite_next h with ⟨c'', h⟩ | ⟨c'', h⟩
            · cases h
              rw [if_pos c', ← num_val, if_pos (truth_of_cast c'')]
              rfl
            · exact absurd h fail_ne
          · cases h
            rw [if_neg c', ← num_val]
            rfl
    · exact absurd h fail_ne
  rw [if_neg n19]
  rcases ite_next h with ⟨c, h⟩ | ⟨n20, h⟩
  · rw [if_pos c]
    unfold opWithin at h
    split at h
    · next z y x r hs =>
      split at h
      · cases h
      · next a ha =>
        split at h
        · cases h
        · next b hb =>
          split at h
          · cases h
          · next e he =>
            cases h
            have hnum : ∀ d n, d ∈ [z, y, x] → decodeScriptNumber d = .ok n →
                Ref.number (s.flags.testBit 6) d.val = some n := by
              intro d n hd hdn
              cases hm : s.flags.testBit 6 with
              | false => exact number_of_decode hdn
              | true => exact number_fits hdn (hf.2.2.2 c hm d (by rw [hs]; simpa using hd)) true
            rw [stack_eq hs]
            simp only [vals_cons]
            rw [hnum x a (by simp) ha, hnum y b (by simp) hb, hnum z e (by simp) he]
            simp only [view, vals_cons, boolBytes_val]
    · exact absurd h fail_ne
  rw [if_neg n20]
  rcases ite_next h with ⟨c, h⟩ | ⟨n21, h⟩
  · rw [if_pos c]
    unfold opHash at h
    split at h
    · exact absurd h fail_ne
    · next x r hs =>
      split at h
      · cases h
      · next d hd =>
        cases h
        rw [stack_eq hs]
        simp only [vals_cons]
        rw [hash_eq c hd]
        rfl
  rw [if_neg n21]
  rcases ite_next h with ⟨c, h⟩ | ⟨n22, h⟩
  · rw [if_pos c]
    cases h
    rfl
  rw [if_neg n22]
  rcases ite_next h with ⟨c, h⟩ | ⟨n23, h⟩
  · exact absurd h (checkSig_ne _ _)
  rw [if_neg n23]
  rcases ite_next h with ⟨c, h⟩ | ⟨n24, h⟩
  · rw [if_pos (.inl c)]
    exact multisig_sound (v := false) c hn h
  rcases ite_next h with ⟨c, h⟩ | ⟨n25, h⟩
  · rw [if_pos (.inr c)]
    exact multisig_sound (v := true) c hn h
  · exact absurd h fail_ne

/-- An opcode of a conditional, in a branch not taken. -/
theorem exec_sound_skip {H : Hashes} {C : Ref.Checker} {s t : State} {op : Nat} {after : List WireInstr}
    (h1 : 99 ≤ op) (h2 : op ≤ 104) (h : exec H s op false = .next t) :
    Ref.exec H C s.flags op false after (view s) = some (view t) := by
  interval_cases op
  · cases (show Res.next _ = .next t from h); rfl
  · cases (show Res.next _ = .next t from h); rfl
  · exact absurd (show fail s .badOpcode = .next t from h) fail_ne
  · exact absurd (show fail s .badOpcode = .next t from h) fail_ne
  · have h : opElse s = .next t := h
    unfold opElse at h
    split at h
    · exact absurd h fail_ne
    · next x r hs =>
      cases h
      show (match s.vfExec with | [] => none | b :: bs => _) = _
      rw [hs]
      rfl
  · have h : opEndif s = .next t := h
    unfold opEndif at h
    split at h
    · exact absurd h fail_ne
    · next x r hs =>
      cases h
      show (match s.vfExec with | [] => none | b :: bs => _) = _
      rw [hs]
      rfl

theorem ref_disabled (op : Nat) : Ref.disabled op = true ↔ op ∈ disabled := by
  rw [disabled_iff]
  unfold Ref.disabled IsDisabled
  rw [decide_eq_true_eq]

theorem cond_all (s : State) : ((view s).cond.all id) = true ↔ Executing s := by
  show s.vfExec.all id = true ↔ _
  unfold Executing
  rw [List.all_eq_true]
  constructor
  · intro h hm; exact absurd (h _ hm) (by simp)
  · intro h x hx
    cases x with
    | true => rfl
    | false => exact absurd hx h

theorem view_enter (s : State) (i : Instruction) (hn : 0 ≤ s.nopCount) :
    (if opOf i > 96 then { view s with ops := (view s).ops + 1 } else view s) = view (enter s i) := by
  unfold enter
  split
  · unfold view
    simp only
    congr 1
    omega
  · rfl

/-- What makes an instruction be executed like by the reference client. -/
def FaithfulAt (s : State) (i : Instruction) : Prop := Executing s → Faithful s (opOf i)

theorem exec_count {H : Hashes} {s t : State} {i : Instruction} (hn : 0 ≤ s.nopCount) (h : Stepped H s i t) :
    0 ≤ t.nopCount := by
  rw [h.count]
  unfold cost
  split
  · omega
  split
  · next hx =>
    have hr := h.run hx.1 (by omega)
    obtain ⟨_, _, e3, _, _, e6, _⟩ := enter_eq s i
    have hkeys : keysOf (enter s i) = keysOf s := by unfold keysOf flag; rw [e6, e3]
    rcases hx.2 with ho | ho
    · rw [ho] at hr
      have := (checkMultisig_next (show checkMultisig (enter s i) _ false = .next t from hr)).2.2.2.2.2.1
      omega
    · rw [ho] at hr
      have := (checkMultisig_next (show checkMultisig (enter s i) _ true = .next t from hr)).2.2.2.2.2.1
      omega
  · omega

/-- A short push that passes as minimal has no data. -/
theorem minimal_push {i : Instruction} (hw : Wf i.wire) (hp : ¬ (76 ≤ opOf i ∧ opOf i ≤ 78)) (ho : opOf i ≤ 78)
    (h : i.isMinimalPush = .ok true) : Ref.minimalPush (opOf i) (i.wire.2.getD []) = true := by
  obtain ⟨⟨op⟩, d⟩ := i
  simp only [opOf] at hp ho
  cases d with
  | none =>
    simp only [Instruction.wire, Option.map_none, Wf, pushKind] at hw
    have : op.val = 0 := by
      by_contra hc
      rw [if_neg hc, if_pos (by omega)] at hw
      cases hw
    simp only [Instruction.wire, opOf, this]
    rfl
  | some d =>
    exfalso
    simp only [Instruction.wire, Option.map_some, Wf, pushKind] at hw
    by_cases h0 : op.val = 0
    · rw [if_pos h0] at hw; exact hw
    rw [if_neg h0, if_pos (by omega)] at hw
    simp only [] at hw
    unfold Instruction.isMinimalPush at h
    simp only [] at h
    cases hb : d.val with
    | nil => rw [hb] at hw; exact h0 hw.symm
    | cons b rest =>
      rw [hb] at h hw
      simp only [] at h
      split at h
      · next hr =>
        rw [hr.1] at hw
        simp at hw
        simp only [Except.ok.injEq, beq_iff_eq] at h
        omega
      · split at h
        · next hr =>
          rw [hr.1] at hw
          simp at hw
          simp only [Except.ok.injEq, beq_iff_eq] at h
          have := congrArg (fun o => o.number.val) h
          have h79 : (Opcode.num 79).number.val = 79 := by decide
          simp only [h79] at this
          omega
        · rw [if_pos (by rw [hw]; omega)] at h
          cases h

/-- One instruction. -/
theorem step_sound {H : Hashes} {C : Ref.Checker} {s t : State} {i : Instruction} (hs : step H s = .next t)
    (hi : s.script[s.pc]? = some i) (hw : Wf i.wire) (hp : ¬ (76 ≤ opOf i ∧ opOf i ≤ 78)) (hn : 0 ≤ s.nopCount)
    (hf : FaithfulAt s i) :
    Ref.act H C s.flags i.wire (wiresFrom s.script (s.pc + 1)) (view s) = some (view t) := by
  obtain ⟨i', st⟩ := step_next hs
  have : i' = i := by have := st.fetched; rw [hi] at this; cases this; rfl
  subst this
  rw [step_eq, hi] at hs
  simp only [] at hs
  rcases ite_next hs with ⟨_, hs⟩ | ⟨hsz, hs⟩
  · exact absurd hs fail_ne
  rcases ite_next hs with ⟨_, hs⟩ | ⟨hlim, hs⟩
  · exact absurd hs fail_ne
  obtain ⟨e1, e2, e3, e4, e5, e6, e7, e8, e9⟩ := enter_eq s i'
  have hdl : (i'.wire.2.getD []).length = dataLen i' := by
    unfold Instruction.wire dataLen
    cases i'.data <;> rfl
  have hwn : i'.wire.1.val = opOf i' := rfl
  unfold Ref.act
  extract_lets op data fExec v
  have hop : op = opOf i' := rfl
  have hdata : data = i'.wire.2.getD [] := rfl
  have hv : v = view (enter s i') := by rw [← view_enter s i' hn]; rfl
  have hfe : fExec = true ↔ Executing s := cond_all s
  clear_value op data v fExec
  subst hop hv
  have hops : (view (enter s i')).ops = (s.nopCount + (if opOf i' > 96 then 1 else 0)).toNat := by
    show (enter s i').nopCount.toNat = _
    rw [e9]
  rw [if_neg (by rw [hdata, hdl]; omega), if_neg (by
    rw [hops]; rintro ⟨a, b⟩; rw [if_pos a] at b; apply hlim; omega)]
  rw [if_neg (by rw [ref_disabled]; exact st.enabled)]
  have hexe : Executing (enter s i') ↔ Executing s := by unfold Executing; rw [e5]
  unfold dispatch at hs
  extract_lets op fExec' pu at hs
  have hop : op = opOf i' := rfl
  have hfe' : fExec' = fExec := by
    rw [Bool.eq_iff_iff, hfe, ← hexe]
    exact executing_iff (enter s i')
  have hpu : pu = .next ((enter s i').push (pushed i')) := rfl
  clear_value op fExec' pu
  subst hop hfe' hpu
  rw [if_neg st.enabled] at hs
  rcases ite_next hs with ⟨c, hs⟩ | ⟨c, hs⟩
  · rw [if_pos c]
    have hsome : (flag (enter s i') MINIMALDATA = true → i'.isMinimalPush = .ok true) ∧
        t = (enter s i').push (pushed i') := by
      rcases ite_next hs with ⟨c', hs⟩ | ⟨c', hs⟩
      · split at hs
        · cases hs
        · exact absurd hs fail_ne
        · next hm => cases hs; exact ⟨fun _ => hm, rfl⟩
      · cases hs; exact ⟨fun h => absurd h c', rfl⟩
    obtain ⟨hm, rfl⟩ := hsome
    have hd : data = (pushed i').val := by
      rw [hdata]
      unfold Instruction.wire pushed
      cases i'.data with
      | none => rfl
      | some d =>
        show d.val = _
        simp only []
        split
        · next h => rw [h]; rfl
        · rfl
    rw [if_neg]
    · rw [hd]; rfl
    · rintro ⟨a, b⟩
      have hm := hm (by unfold flag; rw [e3]; exact a)
      apply b
      rw [hdata]
      exact minimal_push hw hp c.2 hm
  rw [if_neg c]
  rcases ite_next hs with ⟨c', hs⟩ | ⟨c', hs⟩
  · rw [if_pos c']
    rw [← e3, ← e2, ← e1]
    cases hfx : fExec' with
    | true =>
      rw [hfx] at hs
      refine exec_sound ?_ ?_ hs
      · have := hf (hfe.1 hfx)
        unfold Faithful at this ⊢
        rw [e6, e3]
        exact this
      · rw [e9]; split <;> omega
    | false =>
      rw [hfx] at hs c'
      exact exec_sound_skip (by simp at c'; exact c'.1) (by simp at c'; exact c'.2) hs
  · rw [if_neg c']
    cases hs
    rfl

/-- A run without failure. -/
theorem run_sound {H : Hashes} {C : Ref.Checker} {s t : State} {tr : List (State × Instruction)} (h : Runs H s tr t)
    (hw : ∀ i ∈ s.script, Wf i.wire ∧ ¬ (76 ≤ opOf i ∧ opOf i ≤ 78)) (hn : 0 ≤ s.nopCount)
    (hf : ∀ p ∈ tr, FaithfulAt p.1 p.2) (hl : ∀ p ∈ tr, p.1.stack.length + p.1.altstack.length ≤ 1000)
    (ht : t.stack.length + t.altstack.length ≤ 1000) (he : ¬ t.pc < t.script.length) :
    Ref.run H C s.flags (wiresFrom s.script s.pc) (view s) = some (view t) := by
  induction h with
  | nil s =>
    have : wiresFrom s.script s.pc = [] := by
      unfold wiresFrom
      rw [List.drop_eq_nil_of_le (by omega)]
      rfl
    rw [this]
    rfl
  | @cons s t u i tr hi hs hr ih =>
    have hil : s.pc < s.script.length := (List.getElem?_eq_some_iff.1 hi).1
    have him : i ∈ s.script := List.mem_of_getElem? hi
    have hd : wiresFrom s.script s.pc = i.wire :: wiresFrom s.script (s.pc + 1) := by
      unfold wiresFrom
      rw [List.drop_eq_getElem?_toList_append, hi]
      rfl
    obtain ⟨i', st⟩ := step_next hs
    have : i' = i := by have := st.fetched; rw [hi] at this; cases this; rfl
    subst this
    rw [hd]
    unfold Ref.run
    rw [step_sound hs hi (hw _ him).1 (hw _ him).2 hn (hf _ List.mem_cons_self)]
    simp only []
    have hlt : t.stack.length + t.altstack.length ≤ 1000 := by
      cases hr with
      | nil => exact ht
      | cons _ _ _ => exact hl _ (List.mem_cons_of_mem _ List.mem_cons_self)
    rw [if_neg (by
      show ¬ (vals t.stack).length + (vals t.altstack).length > 1000
      rw [vals_length, vals_length]; omega)]
    have := ih (by rw [st.script]; exact hw) (exec_count hn st) (fun p hp => hf p (List.mem_cons_of_mem _ hp))
      (fun p hp => hl p (List.mem_cons_of_mem _ hp)) ht he
    rw [st.script, st.pc, st.flags] at this
    exact this

theorem wire_size {w : WireInstr} {b : Bytes} (h : IsWire w b) : wireSize w = b.length := by
  obtain ⟨op, d⟩ := w
  cases d with
  | none => simp only [IsWire] at h; rw [h]; rfl
  | some d =>
    simp only [IsWire, wireSize] at h ⊢
    cases hk : pushKind op with
    | plain => rw [hk] at h; exact h.elim
    | direct n => rw [hk] at h; rw [h, List.length_cons]; simp only []; omega
    | counted w =>
      rw [hk] at h
      obtain ⟨c, rfl, _, rfl⟩ := h
      simp only [List.length_append, List.length_cons]
      omega

theorem size_spec {ws : List WireInstr} {b : Bytes} (h : Encodes ws b) : Ref.size ws = b.length := by
  induction h with
  | nil => rfl
  | cons _ hw _ ih =>
    unfold Ref.size at ih ⊢
    rw [List.map_cons, List.sum_cons, ih, wire_size hw, List.length_append]

/-- Every state that is reached satisfies the condition, with the instruction it executes. -/
def Always (H : Hashes) (s : State) (P : State → Instruction → Prop) : Prop :=
  ∀ tr t i, Runs H s tr t → t.script[t.pc]? = some i → P t i

theorem always_next {H : Hashes} {s t : State} {i : Instruction} {P : State → Instruction → Prop} (h : Always H s P)
    (hi : s.script[s.pc]? = some i) (hs : step H s = .next t) : Always H t P :=
  fun tr u j hr hj => h _ u j (.cons hi hs hr) hj

theorem always_runs {H : Hashes} {s t : State} {tr : List (State × Instruction)} {P : State → Instruction → Prop}
    (h : Always H s P) (hr : Runs H s tr t) : ∀ p ∈ tr, P p.1 p.2 := by
  induction hr with
  | nil _ => simp
  | @cons s t u i tr hi hs _ ih =>
    intro p hp
    rcases List.mem_cons.1 hp with rfl | hp
    · exact h [] _ _ (.nil _) hi
    · exact ih (always_next h hi hs) p hp

/-- At most 1000 elements on the two stacks, and the instruction is executed like by the reference client. -/
def Sound (s : State) (i : Instruction) : Prop :=
  s.stack.length + s.altstack.length ≤ 1000 ∧ FaithfulAt s i

theorem no_pushData {is : List Instruction} {b : Bytes} (hw : ∀ i ∈ is, Wf i.wire) (h : Script.bytesOf is = .ok b) :
    (∀ i ∈ is, Wf i.wire ∧ ¬ (76 ≤ opOf i ∧ opOf i ≤ 78)) ∧ Ref.size (is.map Instruction.wire) = b.length := by
  rcases bytesOf_spec is hw with ⟨_, he⟩ | ⟨hp, b', he, hb⟩
  · rw [h] at he; cases he
  · rw [h] at he
    cases he
    refine ⟨fun i hi => ⟨hw i hi, fun hc => hp ⟨i.wire, List.mem_map_of_mem hi, hc⟩⟩, size_spec hb⟩

theorem view_start (script : Script) (stack : List Data) (flags : Nat) :
    view (start script stack flags) = { stack := vals stack, code := script.wires } := rfl

/-- A script that is evaluated without failure. -/
theorem eval_sound {H : Hashes} {C : Ref.Checker} {script : Script} {stack : List Data} {flags : Nat} {t : State}
    (hw : script.WellFormed) (hf : Always H (start script stack flags) Sound)
    (h : evaluate H (start script stack flags) = (.ok true, t)) :
    Ref.eval H C flags script.wires (vals stack) = some (vals t.stack) := by
  obtain ⟨⟨b, hb, hl⟩, hloop, ht, hv⟩ := evaluate_ok.1 h
  obtain ⟨tr, hr, he⟩ := loop_runs hloop t rfl
  obtain ⟨hp, hsz⟩ := no_pushData hw hb
  have ha := always_runs hf hr
  have := run_sound (C := C) hr hp (le_refl 0) (fun p hp => (ha p hp).2) (fun p hp => (ha p hp).1) ht he
  unfold Ref.eval
  rw [if_neg (by
    show ¬ Ref.size (script.instructions.map Instruction.wire) > 10000
    rw [show Ref.size (script.instructions.map Instruction.wire) = b.length from hsz]; omega)]
  rw [view_start] at this
  rw [show Ref.run H C flags script.wires { stack := vals stack, code := script.wires } = some (view t) from this]
  exact if_pos hv

end Interpreter
end Bitforge
