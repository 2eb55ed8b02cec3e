import Verif.IntBytes
import Verif.Proofs.HdKey

/-! # C79: integers and byte strings -/

namespace Bitforge
open Spec IntBytes

/-- The value of a byte string in either byte order. -/
def orderValue (big : Bool) (b : Bytes) : Nat := if big then beValue b else leValue b

theorem leValue_loop (l : Nat) : ∀ v : Int, (leValue (intToBytesLoop l v) : Int) = v % 256 ^ l ∧
    (intToBytesLoop l v).length = l := by
  induction l with
  | zero => intro v; simp [intToBytesLoop, leValue]
  | succ l ih =>
    intro v
    obtain ⟨h1, h2⟩ := ih (v / 256)
    refine ⟨?_, by simp [intToBytesLoop, h2]⟩
    simp only [intToBytesLoop, leValue]
    push_cast
    rw [h1]
    have hb : ((byte (v % 256).toNat).val : Int) = v % 256 := by
      have : (byte (v % 256).toNat).val = (v % 256).toNat := by
        simp only [byte, Fin.ofNat]
        exact Nat.mod_eq_of_lt (by omega)
      rw [this]; omega
    have hp : (0 : Int) < 256 ^ l := by positivity
    rw [hb, pow_succ, mul_comm ((256 : Int) ^ l) 256]
    have e1 := Int.emod_add_mul_ediv v 256
    have e2 := Int.emod_add_mul_ediv (v / 256) (256 ^ l)
    have l1 := Int.emod_nonneg v (by norm_num : (256 : Int) ≠ 0)
    have l2 := Int.emod_lt_of_pos v (by norm_num : (0 : Int) < 256)
    have l3 := Int.emod_nonneg (v / 256) hp.ne'
    have l4 := Int.emod_lt_of_pos (v / 256) hp
    have e : v = (v % 256 + 256 * (v / 256 % 256 ^ l)) + (256 * 256 ^ l) * (v / 256 / 256 ^ l) := by
      linear_combination -e1 - 256 * e2
    generalize v % 256 = a at *
    generalize v / 256 % 256 ^ l = c at *
    generalize v / 256 / 256 ^ l = d at *
    rw [e, Int.add_mul_emod_self_left, Int.emod_eq_of_lt (by omega) (by omega)]

/-- C79. `to_bytes` gives exactly `length` bytes, of the value modulo 256^length, in either order (so the two's
complement of a negative number). -/
theorem C79_to_bytes (v : Int) (l : Nat) (big : Bool) : (toBytes v l big).length = l ∧
    (orderValue big (toBytes v l big) : Int) = v % 256 ^ l := by
  obtain ⟨h1, h2⟩ := leValue_loop l v
  cases big
  · exact ⟨h2, h1⟩
  · refine ⟨by simp [toBytes, h2], ?_⟩
    simp only [orderValue, toBytes, if_true, beValue, List.reverse_reverse]
    exact h1

theorem foldl_beValue (b : Bytes) : (b.map (·.val)).foldl (fun v c => v <<< 8 + c) 0 = beValue b := by
  rw [← intFromBytes_eq]
  unfold intFromBytes
  rw [List.foldl_map]
  congr 1
  funext v c
  rw [Nat.shiftLeft_eq]

/-- C79. `from_bytes`, unsigned, gives the value in either order, of a `str`.  Missing: signed values and a `bytearray`, of
which it is false (`C79_signed_refuted`, `C79_bytearray_refuted`). -/
theorem C79_from_bytes_partial (b : Bytes) (big : Bool) : fromBytes ⟨.str, b⟩ big = .ok (orderValue big b) := by
  unfold fromBytes bytesToInts
  simp only [foldl_beValue]
  cases big
  · simp [orderValue, beValue]
  · simp [orderValue]

/-- C79. The two are inverse. -/
theorem C79_roundtrip (v l : Nat) (hv : v < 256 ^ l) (b : Bytes) (big : Bool) :
    fromBytes ⟨.str, toBytes v l big⟩ big = .ok v ∧
    (∀ n, fromBytes ⟨.str, b⟩ big = .ok n → toBytes n b.length big = b) := by
  obtain ⟨h1, h2⟩ := C79_to_bytes v l big
  constructor
  · rw [C79_from_bytes_partial]
    rw [Int.emod_eq_of_lt (by omega) (by exact_mod_cast hv)] at h2
    congr 1
    exact_mod_cast h2
  · intro n hn
    rw [C79_from_bytes_partial] at hn
    cases hn
    obtain ⟨h3, h4⟩ := C79_to_bytes (orderValue big b) b.length big
    cases big
    · simp only [orderValue] at h4 ⊢
      refine leValue_inj _ _ h3 ?_
      rw [Int.emod_eq_of_lt (by omega) (by exact_mod_cast leValue_lt b)] at h4
      exact_mod_cast h4
    · simp only [orderValue, if_true] at h4 ⊢
      refine beValue_inj _ _ h3 ?_
      have hlt : beValue b < 256 ^ b.length := by have := leValue_lt b.reverse; simpa [beValue] using this
      rw [Int.emod_eq_of_lt (by omega) (by exact_mod_cast hlt)] at h4
      exact_mod_cast h4

theorem minLoop_eq : ∀ fuel v, v ≤ fuel → intToBytesMinLoop fuel v = leDigits v := by
  intro fuel
  induction fuel with
  | zero => intro v h; obtain rfl : v = 0 := by omega
            rfl
  | succ fuel ih =>
    intro v h
    simp only [intToBytesMinLoop]
    split
    · subst v; rfl
    · rename_i hv
      have e1 : v &&& 0xff = v % 256 := Nat.and_two_pow_sub_one_eq_mod v 8
      have e2 : v >>> 8 = v / 256 := Nat.shiftRight_eq_div_pow v 8
      rw [e1, e2, ih (v / 256) (by omega), leDigits_eq, leDigits_eq v,
        Nat.digits_def' (by norm_num) (Nat.pos_of_ne_zero hv), List.map_cons]

/-- C79. `int_to_bytes` gives the shortest byte string with the value, without a zero in front, and `int_from_bytes`
inverts it. -/
theorem C79_minimal (v : Nat) : beValue (intToBytesMin v) = v ∧ (intToBytesMin v).head? ≠ some 0 ∧
    (∀ b, beValue b = v → (intToBytesMin v).length ≤ b.length) ∧
    intFromBytesData ⟨.str, intToBytesMin v⟩ = .ok v := by
  have e : intToBytesMin v = (leDigits v).reverse := by
    unfold intToBytesMin; rw [Int.toNat_natCast, minLoop_eq v v (le_refl v)]
  have h1 : beValue (intToBytesMin v) = v := by rw [e]; simp [beValue]
  refine ⟨h1, ?_, ?_, ?_⟩
  · rw [e, List.head?_reverse]
    intro h
    have hne : leDigits v ≠ [] := by intro h'; rw [h'] at h; cases h
    rw [List.getLast?_eq_some_getLast hne] at h
    exact leDigits_getLast_ne_zero hne (Option.some.inj h)
  · intro b hb
    rw [e, List.length_reverse]
    refine leDigits_length_le ?_
    have := leValue_lt b.reverse
    rw [List.length_reverse] at this
    rw [← hb]
    exact this
  · unfold intFromBytesData bytesToInts
    simp only [foldl_beValue, h1]

/-- C79. `int_to_bytes` of a number below one is empty. -/
theorem C79_minimal_negative (v : Int) (hv : v ≤ 0) : intToBytesMin v = [] := by
  unfold intToBytesMin
  rw [show v.toNat = 0 by omega]
  rfl

/-- C79. `int_from_bytes` of a `str` is its big-endian value; of a `bytearray` with something in it a TypeError. -/
theorem C79_int_from_bytes (b : Bytes) : intFromBytesData ⟨.str, b⟩ = .ok (beValue b) ∧
    (b ≠ [] → intFromBytesData ⟨.bytearray, b⟩ = .error .typeError) := by
  refine ⟨?_, fun hb => ?_⟩
  · unfold intFromBytesData bytesToInts
    simp only [foldl_beValue]
  · unfold intFromBytesData bytesToInts
    simp only [hb, if_false]

/-- C79. The functions used by the ECDSA code are these. -/
theorem C79_ecdsa (v : Int) (l : Nat) (b : Bytes) : intToBytes v l = toBytes v l ∧
    fromBytes ⟨.str, b⟩ = .ok (intFromBytes b) := by
  refine ⟨rfl, ?_⟩
  rw [C79_from_bytes_partial, intFromBytes_eq]
  rfl

/-- C79 is false of the code: with `signed`, `from_bytes` never returns. -/
theorem C79_signed_refuted (b : Data) (big : Bool) : ∃ e, fromBytes b big true = .error e := by
  unfold fromBytes
  split
  · exact ⟨_, rfl⟩
  · simp only [if_true]
    split
    · exact ⟨_, rfl⟩
    · exact ⟨_, rfl⟩

/-- C79 is false of the code: a `bytearray` is a TypeError, unless it is empty. -/
theorem C79_bytearray_refuted (b : Bytes) (hb : b ≠ []) (big signed : Bool) :
    fromBytes ⟨.bytearray, b⟩ big signed = .error .typeError := by
  unfold fromBytes bytesToInts
  have : (if big = true then b else b.reverse) ≠ [] := by cases big <;> simpa using hb
  simp only [this, if_false]

/-- C79. `bytes_from_ints` returns the bytes with the given values, and raises ValueError if there are none. -/
theorem C79_from_ints (l : List Int) : (∀ b, bytesFromInts l = .ok b ↔ b.map (fun x => (x.val : Int)) = l) ∧
    (bytesFromInts l = .error .valueError ↔ ∃ n ∈ l, n < 0 ∨ 256 ≤ n) := by
  induction l with
  | nil =>
    refine ⟨fun b => ⟨fun h => by cases h; rfl, fun h => by rw [List.map_eq_nil_iff.1 h]; rfl⟩, ⟨fun h => (by cases h), ?_⟩⟩
    rintro ⟨n, hn, -⟩
    cases hn
  | cons n l ih =>
    obtain ⟨ih1, ih2⟩ := ih
    by_cases hn : 0 ≤ n ∧ n < 256
    · have e : bytesFromInt n = .ok [byte n.toNat] := if_pos hn
      have hv : ((byte n.toNat).val : Int) = n := by rw [byte_val]; omega
      cases h : bytesFromInts l with
      | error x =>
        have e' : bytesFromInts (n :: l) = .error x := by simp only [bytesFromInts, e, h]
        rw [e']
        refine ⟨fun b => ⟨fun h' => (by cases h'), fun h' => ?_⟩, ?_⟩
        · cases b with
          | nil => cases h'
          | cons y b =>
            have := (ih1 b).2 (List.cons.inj h').2
            rw [h] at this; cases this
        · rw [h] at ih2
          simp only [List.mem_cons, exists_eq_or_imp]
          rw [ih2]
          exact ⟨Or.inr, fun h => h.resolve_left (by omega)⟩
      | ok bs =>
        have hbs := (ih1 bs).1 h
        have e' : bytesFromInts (n :: l) = .ok (byte n.toNat :: bs) := by simp only [bytesFromInts, e, h]; rfl
        rw [e']
        refine ⟨fun b => ?_, ?_⟩
        · rw [Except.ok.injEq]
          constructor
          · rintro rfl
            simp only [List.cons_append, List.nil_append, List.map_cons, hv, hbs]
          · intro h'
            cases b with
            | nil => cases h'
            | cons y b =>
              obtain ⟨hy, hb⟩ := List.cons.inj h'
              have h2 := (ih1 b).2 hb
              rw [h] at h2
              cases h2
              have : y = byte n.toNat := by
                apply Fin.ext
                have : ((y.val : Nat) : Int) = ((byte n.toNat).val : Int) := hy.trans hv.symm
                exact_mod_cast this
              rw [this]
        · rw [h] at ih2
          simp only [List.mem_cons, exists_eq_or_imp]
          constructor
          · intro h'; cases h'
          · rintro (h' | h')
            · omega
            · cases ih2.2 h'
    · have e : bytesFromInt n = .error .valueError := if_neg hn
      have e' : bytesFromInts (n :: l) = .error .valueError := by simp only [bytesFromInts, e]
      rw [e']
      refine ⟨fun b => ⟨fun h' => (by cases h'), fun h' => ?_⟩, ⟨fun _ => ⟨n, by simp, by omega⟩, fun _ => rfl⟩⟩
      cases b with
      | nil => cases h'
      | cons y b =>
        obtain ⟨hy, -⟩ := List.cons.inj h'
        have := y.isLt
        have hy' : ((y.val : Nat) : Int) = n := hy
        exact absurd ⟨by omega, by omega⟩ hn

/-- C79. `bytes_from_ints` and `bytes_to_ints` are inverse. -/
theorem C79_ints (b : Bytes) : bytesToInts ⟨.str, b⟩ = .ok (b.map (·.val)) ∧
    bytesFromInts (b.map fun x => (x.val : Int)) = .ok b := by
  exact ⟨rfl, ((C79_from_ints _).1 b).2 rfl⟩

example : toBytes (-2) 2 false = [254, 255] ∧ fromBytes ⟨.str, [1, 2]⟩ false = .ok 513 ∧ intToBytesMin 258 = [1, 2] ∧
    fromBytes ⟨.str, [255]⟩ true true = .error .typeError := by decide

end Bitforge
