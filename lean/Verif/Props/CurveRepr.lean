import Verif.CurveRepr
import Verif.Props.Messages
import Verif.Props.CurveObj

/-! # C137: the text of a curve or a point determines it -/

namespace Bitforge.Texts
open Spec

/-- A Python 2 number and its value: decimal digits, maybe a minus sign in front, `L` at the end of a `long`. -/
inductive Numeral : Bool → Text → Int → Prop
  | int {t : Text} {n : Int} : Integer t n → Numeral false t n
  | long {t : Text} {n : Int} : Integer t n → Numeral true (t ++ ['L']) n

/-- A number or `None`. -/
inductive OptionText (l : Bool) : Text → Option Int → Prop
  | none : OptionText l "None".toList Option.none
  | some {t : Text} {n : Int} : Numeral l t n → OptionText l t (Option.some n)

/-- The text that makes a curve: the modulus and the two coefficients. -/
inductive CurveText (l : Longs) : Text → CurveFp → Prop
  | intro {tp ta tb : Text} {c : CurveFp} : Numeral l.p tp c.p → Numeral l.a ta c.a → Numeral l.b tb c.b →
      CurveText l ("CurveFp(".toList ++ (tp ++ ',' :: (ta ++ ',' :: (tb ++ [')'])))) c

/-- A curve or `None`. -/
inductive MaybeCurve (l : Longs) : Text → Option CurveFp → Prop
  | none : MaybeCurve l "None".toList Option.none
  | some {t : Text} {c : CurveFp} : CurveText l t c → MaybeCurve l t (Option.some c)

/-- The text that makes a point: its curve, coordinates and order. -/
inductive PointText (l : Longs) : Text → Option CurveFp → Option Int → Option Int → Option Int → Prop
  | intro {tc tx ty tn : Text} {c : Option CurveFp} {x y o : Option Int} : MaybeCurve l tc c → OptionText l.x tx x →
      OptionText l.y ty y → OptionText l.order tn o →
      PointText l ("Point(".toList ++ (tc ++ ',' :: (tx ++ ',' :: (ty ++ ',' :: (tn ++ [')']))))) c x y o

theorem numeral_repr (l : Bool) (n : Int) : Numeral l (reprInt l n) n := by
  unfold reprInt
  cases l
  · exact .int (integer_showInt n)
  · exact .long (integer_showInt n)

theorem option_repr (l : Bool) (n : Option Int) : OptionText l (reprOption l n) n := by
  cases n
  · exact .none
  · exact .some (numeral_repr l _)

theorem curve_repr (l : Longs) (c : CurveObj) : CurveText l (c.repr l) c.curve := by
  unfold CurveObj.repr
  simp only [List.append_assoc, List.cons_append]
  exact .intro (numeral_repr _ _) (numeral_repr _ _) (numeral_repr _ _)

/-- C137. `repr` of a curve is the text that makes it, whichever of its numbers are `long`. -/
theorem C137_curve (l : Longs) (c : CurveObj) : CurveText l (c.repr l) c.curve := curve_repr l c

/-- C137. `repr` of a point is the text that makes it: of every point, also one without a curve or coordinates. -/
theorem C137_point (l : Longs) (P : PointObj) : PointText l (P.repr l) (P.curve.map (·.curve)) P.x P.y P.order := by
  unfold PointObj.repr
  simp only [List.append_assoc, List.cons_append]
  refine .intro ?_ (option_repr _ _) (option_repr _ _) (option_repr _ _)
  cases P.curve
  · exact .none
  · exact .some (curve_repr _ _)

theorem integer_chars {t : Text} {n : Int} (h : Integer t n) : ∀ c ∈ t, c = '-' ∨ ('0'.toNat ≤ c.toNat ∧ c.toNat ≤ '9'.toNat) := by
  intro c hc
  rcases h with ⟨-, h⟩ | ⟨-, m, rfl, h⟩
  · exact .inr (h.2.1 c hc)
  · rcases List.mem_cons.1 hc with hc | hc
    · exact .inl hc
    · exact .inr (h.2.1 c hc)

theorem integer_unique {t : Text} {m n : Int} (h : Integer t m) (h' : Integer t n) : m = n := by
  have neg : ∀ {u : Text} {k : Nat}, Decimal ('-' :: u) k → False := by
    intro u k hd
    exact absurd (hd.2.1 '-' (by simp)) (by decide)
  rcases h with ⟨h0, h⟩ | ⟨h0, u, rfl, h⟩
  · rcases h' with ⟨h0', h'⟩ | ⟨h0', u, rfl, h'⟩
    · have := h.2.2.1.symm.trans h'.2.2.1
      omega
    · exact (neg h).elim
  · rcases h' with ⟨h0', h'⟩ | ⟨h0', v, hv, h'⟩
    · exact (neg h').elim
    · cases hv
      have := h.2.2.1.symm.trans h'.2.2.1
      omega

theorem not_in_integer {t : Text} {n : Int} (h : Integer t n) {c : Char}
    (hc : ¬ (c = '-' ∨ ('0'.toNat ≤ c.toNat ∧ c.toNat ≤ '9'.toNat))) : c ∉ t := fun hm => hc (integer_chars h c hm)

theorem numeral_unique {l l' : Bool} {t : Text} {m n : Int} (h : Numeral l t m) (h' : Numeral l' t n) : m = n := by
  generalize ht : t = t' at h'
  cases h with
  | int h =>
    cases h' with
    | int h' => subst ht; exact integer_unique h h'
    | long h' => exact absurd (by rw [ht]; simp) (not_in_integer h (c := 'L') (by decide))
  | long h =>
    cases h' with
    | int h' => exact absurd (by rw [← ht]; simp) (not_in_integer h' (c := 'L') (by decide))
    | long h' =>
      have := List.append_cancel_right ht
      subst this
      exact integer_unique h h'

theorem not_in_numeral {l : Bool} {t : Text} {n : Int} (h : Numeral l t n) {c : Char}
    (hc : ¬ (c = 'L' ∨ c = '-' ∨ ('0'.toNat ≤ c.toNat ∧ c.toNat ≤ '9'.toNat))) : c ∉ t := by
  have sub : ∀ {u : Text} {n : Int}, Integer u n → c ∉ u := fun hu => not_in_integer hu fun hm => hc (.inr hm)
  cases h with
  | int h => exact sub h
  | long h =>
    intro hm
    rcases List.mem_append.1 hm with hm | hm
    · exact sub h hm
    · exact hc (.inl (List.mem_singleton.1 hm))

theorem option_unique {l l' : Bool} {t : Text} {m n : Option Int} (h : OptionText l t m) (h' : OptionText l' t n) : m = n := by
  have no : ∀ {l : Bool} {u : Text} {n : Int}, Numeral l u n → u ≠ "None".toList := by
    intro l u n hu he
    exact absurd (by rw [he]; decide) (not_in_numeral hu (c := 'N') (by decide))
  generalize ht : t = t' at h'
  cases h with
  | none =>
    cases h' with
    | none => rfl
    | some h' => exact absurd ht.symm (no h')
  | some h =>
    cases h' with
    | none => exact absurd ht (no h)
    | some h' => subst ht; rw [numeral_unique h h']

theorem comma_option {l : Bool} {t : Text} {n : Option Int} (h : OptionText l t n) : ',' ∉ t := by
  cases h with
  | none => decide
  | some h => exact not_in_numeral h (by decide)

theorem curve_cut {l l' : Longs} {t t' u u' : Text} {c c' : CurveFp} (h : CurveText l t c) (h' : CurveText l' t' c') (he : t ++ u = t' ++ u') :
    c = c' ∧ u = u' := by
  cases h with
  | intro p a b =>
    cases h' with
    | intro p' a' b' =>
      simp only [List.append_assoc, List.cons_append, List.nil_append] at he
      have he' := List.append_cancel_left he
      obtain ⟨e1, f1⟩ := split_first he' (not_in_numeral p (by decide)) (not_in_numeral p' (by decide))
      obtain ⟨e2, f2⟩ := split_first f1 (not_in_numeral a (by decide)) (not_in_numeral a' (by decide))
      obtain ⟨e3, f3⟩ := split_first f2 (not_in_numeral b (by decide)) (not_in_numeral b' (by decide))
      subst e1 e2 e3
      have hp := Int.ofNat.inj (numeral_unique p p')
      have ha := numeral_unique a a'
      have hb := numeral_unique b b'
      refine ⟨?_, f3⟩
      cases c; cases c'
      simp only at hp ha hb
      rw [hp, ha, hb]

/-- C137. One text makes one curve only. -/
theorem C137_curve_unique (l l' : Longs) (t : Text) (c c' : CurveFp) (h : CurveText l t c) (h' : CurveText l' t c') : c = c' :=
  (curve_cut (u := []) (u' := []) h h' rfl).1

theorem maybe_cut {l l' : Longs} {t t' u u' : Text} {c c' : Option CurveFp} (h : MaybeCurve l t c) (h' : MaybeCurve l' t' c')
    (he : t ++ u = t' ++ u') : c = c' ∧ u = u' := by
  have no : ∀ {l : Longs} {v w w' : Text} {c : CurveFp}, CurveText l v c → "None".toList ++ w ≠ v ++ w' := by
    intro l v w w' c hv he
    cases hv
    have := congrArg List.head? he
    exact absurd (show some 'N' = some 'C' from this) (by decide)
  cases h with
  | none =>
    cases h' with
    | none => exact ⟨rfl, List.append_cancel_left he⟩
    | some h' => exact absurd he (no h')
  | some h =>
    cases h' with
    | none => exact absurd he.symm (no h)
    | some h' =>
      obtain ⟨e1, e2⟩ := curve_cut h h' he
      exact ⟨by rw [e1], e2⟩

/-- C137. One text makes one point only: the same parameters of the curve, coordinates and order. -/
theorem C137_point_unique (l l' : Longs) (t : Text) (c c' : Option CurveFp) (x x' y y' o o' : Option Int)
    (h : PointText l t c x y o) (h' : PointText l' t c' x' y' o') : c = c' ∧ x = x' ∧ y = y' ∧ o = o' := by
  generalize ht : t = t' at h'
  cases h with
  | intro hc hx hy ho =>
    cases h' with
    | intro hc' hx' hy' ho' =>
      have he := List.append_cancel_left ht
      obtain ⟨ec, he⟩ := maybe_cut hc hc' he
      have he := List.tail_eq_of_cons_eq he
      obtain ⟨ex, he⟩ := split_first he (comma_option hx) (comma_option hx')
      obtain ⟨ey, he⟩ := split_first he (comma_option hy) (comma_option hy')
      have eo := List.append_cancel_right he
      subst ex ey eo
      exact ⟨ec, option_unique hx hx', option_unique hy hy', option_unique ho ho'⟩

/-- C137. Points have the same `repr` only if their curves have the same parameters and their coordinates and orders are the
same; on one curve object they are then equal. -/
theorem C137_repr (l l' : Longs) (P P' : PointObj) (h : P.repr l = P'.repr l') :
    (P.curve.map (·.curve) = P'.curve.map (·.curve) ∧ P.x = P'.x ∧ P.y = P'.y ∧ P.order = P'.order) ∧
    (P.curve = P'.curve → P.eq P' = true) := by
  have key := C137_point_unique _ _ _ _ _ _ _ _ _ _ _ (C137_point l P) (h ▸ C137_point l' P')
  refine ⟨key, fun hc => ?_⟩
  unfold PointObj.eq
  rw [hc, key.2.1, key.2.2.1, same_self]
  simp

/-- C137. The message of NoSuchPointError names the coordinates and the parameters of the curve. -/
theorem C137_refused (c c' : CurveObj) (x y x' y' : Int) :
    PointObj.noSuchPoint c x y = PointObj.noSuchPoint c' x' y' ↔ c.curve = c'.curve ∧ x = x' ∧ y = y' := by
  constructor
  · intro h
    unfold PointObj.noSuchPoint at h
    simp only [List.append_assoc, List.cons_append, List.cons.injEq, true_and] at h
    have no : ∀ n, ',' ∉ showInt n ∧ ')' ∉ showInt n := fun n =>
      ⟨not_in_integer (integer_showInt n) (by decide), not_in_integer (integer_showInt n) (by decide)⟩
    obtain ⟨ex, h⟩ := split_first h (no x).1 (no x').1
    obtain ⟨ey, h⟩ := split_first (s := ')') h (no y).2 (no y').2
    have h := List.append_cancel_left (as := " is not on the curve ".toList) h
    exact ⟨(C91_curve_str c c').1 h, showInt_inj ex, showInt_inj ey⟩
  · rintro ⟨h, rfl, rfl⟩
    unfold PointObj.noSuchPoint
    rw [(C91_curve_str c c').2 h]

/-! ## Examples -/

/-- (1, 4) with its order 9 on `y² = x³ + 2x + 2` over GF(11); the coordinates are `long`. -/
example : PointObj.repr ⟨false, false, false, true, true, false⟩ ⟨some ⟨5, curve11⟩, some 1, some 4, some 9⟩ =
    "Point(CurveFp(11,2,2),1L,4L,9)".toList ∧
    PointObj.repr ⟨true, true, true, true, true, true⟩ .infinity = "Point(None,None,None,None)".toList ∧
    PointObj.noSuchPoint ⟨5, curve11⟩ 1 (-5) = "(1,-5) is not on the curve y^2 = x^3 + 2*x + 2 (mod 11)".toList ∧
    PointObj.init (some ⟨5, curve11⟩) (some 1) (some (-5)) none = .error .noSuchPointError := by decide +kernel

/-- A text of a point with a negative coordinate and no order. -/
example : PointText ⟨false, false, false, false, true, false⟩ "Point(CurveFp(11,2,2),-10,4L,None)".toList (some curve11) (some (-10)) (some 4) none := by
  have h := C137_point ⟨false, false, false, false, true, false⟩ ⟨some ⟨5, curve11⟩, some (-10), some 4, none⟩
  have e : PointObj.repr ⟨false, false, false, false, true, false⟩ ⟨some ⟨5, curve11⟩, some (-10), some 4, none⟩ =
    "Point(CurveFp(11,2,2),-10,4L,None)".toList := by decide +kernel
  rw [e] at h
  exact h

end Bitforge.Texts
