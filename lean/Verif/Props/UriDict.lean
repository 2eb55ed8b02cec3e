import Verif.Props.UriRead

/-! # C60: a URI made from a dictionary -/

namespace Bitforge
open Spec BtcUnit

/-- The number without its digits after the point. -/
inductive WholePart : Num → Int → Prop
  | int (n : Int) : WholePart (.int n) n
  | positive (q : ℚ) (n : Int) : (n : ℚ) ≤ q → q < n + 1 → 0 ≤ q → WholePart (.float (.fin q)) n
  | negative (q : ℚ) (n : Int) : q ≤ n → (n : ℚ) < q + 1 → q < 0 → WholePart (.float (.fin q)) n

theorem whole_iff (x : Num) (n : Int) : x.toInt = .ok n ↔ WholePart x n := by
  rcases x with m | q | neg | _
  · constructor
    · intro h
      cases h
      exact .int _
    · intro h
      cases h
      rfl
  · have hv : Num.toInt (.float (.fin q)) = .ok (if 0 ≤ q then ⌊q⌋ else ⌈q⌉) := rfl
    rw [hv]
    by_cases hq : 0 ≤ q
    · rw [if_pos hq]
      constructor
      · intro h
        injection h with h
        subst h
        exact .positive _ _ (Int.floor_le q) (Int.lt_floor_add_one q) hq
      · rintro (_ | ⟨_, _, h1, h2, h3⟩ | ⟨_, _, h1, h2, h3⟩)
        · rw [Int.floor_eq_iff.2 ⟨h1, h2⟩]
        · exact absurd hq (not_le.2 h3)
    · rw [if_neg hq]
      constructor
      · intro h
        injection h with h
        subst h
        exact .negative _ _ (Int.le_ceil q) (Int.ceil_lt_add_one q) (not_le.1 hq)
      · rintro (_ | ⟨_, _, h1, h2, h3⟩ | ⟨_, _, h1, h2, h3⟩)
        · exact absurd h3 hq
        · rw [Int.ceil_eq_iff.2 ⟨by linarith, h1⟩]
  · constructor
    · intro h; cases h
    · intro h; cases h
  · constructor
    · intro h; cases h
    · intro h; cases h

/-- Amounts that are too large: an infinite one, or one whose whole part does not fit a `float`. -/
inductive Huge : Num → Prop
  | infinite (neg : Bool) : Huge (.float (.inf neg))
  | whole (x : Num) (n : Int) : WholePart x n → 2 ^ 970 * (2 ^ 54 - 1) ≤ |n| → Huge x

/-- `Unit(satoshis = x)`. -/
theorem ofSatoshis_three (x : Num) :
    (∃ n a, WholePart x n ∧ |n| < 2 ^ 970 * (2 ^ 54 - 1) ∧ ofSatoshis (.int n) = .ok a ∧ ofSatoshis x = .ok a ∧
      a.satoshis = n) ∨
    (Huge x ∧ ofSatoshis x = .error .overflowError) ∨ (x = .float .nan ∧ ofSatoshis x = .error .valueError) := by
  have key : ∀ n, x.toInt = .ok n → ofSatoshis x = ofSatoshis (.int n) := by
    intro n hn
    simp only [ofSatoshis, new, setValues, hn]
    rfl
  cases hx : x.toInt with
  | ok n =>
    have hw := (whole_iff x n).1 hx
    rcases lt_or_ge (|n|) (2 ^ 970 * (2 ^ 54 - 1)) with hb | hb
    · obtain ⟨a, ha, hs⟩ := C59_satoshis_partial n hb
      exact .inl ⟨n, a, hw, hb, ha, (key n hx).trans ha, hs⟩
    · exact .inr (.inl ⟨.whole _ n hw hb, (key n hx).trans (C59_satoshis_refuted n hb)⟩)
  | error e =>
    rcases x with m | q | neg | _
    · cases hx
    · cases hx
    · exact .inr (.inl ⟨.infinite neg, rfl⟩)
    · exact .inr (.inr ⟨rfl, rfl⟩)

theorem huge_not_small {x : Num} (h : Huge x) : ∀ n, WholePart x n → ¬ |n| < 2 ^ 970 * (2 ^ 54 - 1) := by
  intro n hn hb
  cases h with
  | infinite neg => cases hn
  | whole _ m hm hm' =>
    have h1 := (whole_iff _ _).2 hm
    rw [(whole_iff _ _).2 hn] at h1
    injection h1 with h1
    subst h1
    exact absurd hb (not_lt.2 hm')

/-- What `URI(dict)` does. -/
theorem dict_eq (H : Hashes) (am : Option (Option Num)) (rest : Dict Value) :
    URI.new H (.dict am rest) =
      match Dict.get? rest "address".toList with
      | some (.text t) =>
        match Address.fromString H t with
        | .error e => .error e
        | .ok ad =>
          match am with
          | none => .ok ⟨ad, none, Dict.get? rest "message".toList, Dict.get? rest "label".toList,
              Dict.get? rest "r".toList, rest.filter fun e => e.1 ∉ memberKeys⟩
          | some none => .error .valueError
          | some (some n) =>
            match ofSatoshis n with
            | .error e => .error e
            | .ok a => .ok ⟨ad, some a, Dict.get? rest "message".toList, Dict.get? rest "label".toList,
                Dict.get? rest "r".toList, rest.filter fun e => e.1 ∉ memberKeys⟩
      | _ => .error .attributeError := by
  unfold URI.new URI.buildFromDict ofSatoshis
  simp only
  cases ha : Dict.get? rest "address".toList with
  | none => rfl
  | some v =>
    cases v with
    | num n => rfl
    | none => rfl
    | text t =>
      simp only [URI.readAddress]
      cases hf : Address.fromString H t with
      | error e => rfl
      | ok ad =>
        rcases am with _ | _ | n
        · rfl
        · rfl
        · simp only [bind, Except.bind]
          cases BtcUnit.new (some n) none none none <;> rfl

/-- C60. A dictionary makes a URI exactly if there is an address under `address` and a number that is not too large
under `amount`, or nothing; the other attributes and the extras are taken over as they are. -/
theorem C60_dict (H : Hashes) (am : Option (Option Num)) (rest : Dict Value) (u : URI) :
    URI.new H (.dict am rest) = .ok u ↔
      (∃ t, Dict.get? rest "address".toList = some (.text t) ∧ Address.fromString H t = .ok u.address) ∧
      ((am = none ∧ u.amount = none) ∨ ∃ x n a, am = some (some x) ∧ WholePart x n ∧ ofSatoshis (.int n) = .ok a ∧
        u.amount = some a) ∧
      u.message = Dict.get? rest "message".toList ∧ u.label = Dict.get? rest "label".toList ∧
      u.r = Dict.get? rest "r".toList ∧ u.extras = rest.filter fun e => e.1 ∉ memberKeys := by
  obtain ⟨ad', am', me, la, r, ex⟩ := u
  rw [dict_eq]
  constructor
  · intro h
    split at h
    · next t ht =>
      split at h
      · cases h
      · next ad had =>
        split at h
        · injection h with h
          injection h with h1 h2 h3 h4 h5 h6
          subst h1 h2 h3 h4 h5 h6
          exact ⟨⟨t, ht, had⟩, .inl ⟨rfl, rfl⟩, rfl, rfl, rfl, rfl⟩
        · cases h
        · next x =>
          split at h
          · cases h
          · next a hx =>
            injection h with h
            injection h with h1 h2 h3 h4 h5 h6
            subst h1 h2 h3 h4 h5 h6
            rcases ofSatoshis_three x with ⟨n, a', hw, -, ha', hx', -⟩ | ⟨-, hx'⟩ | ⟨-, hx'⟩
            · rw [hx] at hx'
              injection hx' with hx'
              subst hx'
              exact ⟨⟨t, ht, had⟩, .inr ⟨x, n, a, rfl, hw, ha', rfl⟩, rfl, rfl, rfl, rfl⟩
            · rw [hx] at hx'; cases hx'
            · rw [hx] at hx'; cases hx'
    · cases h
  · rintro ⟨⟨t, ht, had⟩, ham, h3, h4, h5, h6⟩
    simp only at had ham h3 h4 h5 h6
    subst h3 h4 h5 h6
    simp only [ht, had]
    rcases ham with ⟨rfl, rfl⟩ | ⟨x, n, a, rfl, hw, ha, rfl⟩
    · rfl
    · have hx : ofSatoshis x = ofSatoshis (.int n) := by
        simp only [ofSatoshis, new, setValues, (whole_iff x n).2 hw]
        rfl
      simp only [hx, ha]

/-- C60. What escapes `is_valid` of a dictionary: an `AttributeError` if there is no text under `address`, and an
`OverflowError` if there is an address, and an amount that is too large.  (The claim says that nothing does.) -/
theorem C60_dict_is_valid_partial (H : Hashes) (am : Option (Option Num)) (rest : Dict Value) (e : Err) :
    URI.isValid H (.dict am rest) = .error e ↔
      (e = .attributeError ∧ ∀ t, Dict.get? rest "address".toList ≠ some (.text t)) ∨
      (e = .overflowError ∧ ∃ t ad x, Dict.get? rest "address".toList = some (.text t) ∧
        Address.fromString H t = .ok ad ∧ am = some (some x) ∧ Huge x) := by
  unfold URI.isValid
  rw [dict_eq]
  cases ha : Dict.get? rest "address".toList with
  | none =>
    constructor
    · intro h
      cases h
      exact .inl ⟨rfl, by simp⟩
    · rintro (⟨rfl, -⟩ | ⟨-, t, ad, x, h, -⟩)
      · rfl
      · cases h
  | some v =>
    cases v with
    | num n =>
      constructor
      · intro h
        cases h
        exact .inl ⟨rfl, by simp⟩
      · rintro (⟨rfl, -⟩ | ⟨-, t, ad, x, h, -⟩)
        · rfl
        · cases h
    | none =>
      constructor
      · intro h
        cases h
        exact .inl ⟨rfl, by simp⟩
      · rintro (⟨rfl, -⟩ | ⟨-, t, ad, x, h, -⟩)
        · rfl
        · cases h
    | text t =>
      simp only
      cases hf : Address.fromString H t with
      | error e' =>
        simp only [fromString_caught hf, if_true]
        constructor
        · intro h; cases h
        · rintro (⟨-, h⟩ | ⟨-, t', ad, x, h, h', -⟩)
          · exact absurd rfl (h t)
          · injection h with h
            injection h with h
            subst h
            rw [hf] at h'
            cases h'
      | ok ad =>
        have hno : ¬ (∀ t', some (Value.text t) ≠ some (.text t')) := fun h => h t rfl
        rcases am with _ | _ | x
        · constructor
          · intro h; cases h
          · rintro (⟨-, h⟩ | ⟨-, t', ad', x, -, -, h, -⟩)
            · exact absurd h hno
            · cases h
        · constructor
          · intro h; cases h
          · rintro (⟨-, h⟩ | ⟨-, t', ad', x, -, -, h, -⟩)
            · exact absurd h hno
            · cases h
        · simp only
          rcases ofSatoshis_three x with ⟨n, a, hw, hb, -, hx, -⟩ | ⟨hh, hx⟩ | ⟨rfl, hx⟩
          · rw [hx]
            constructor
            · intro h; cases h
            · rintro (⟨-, h⟩ | ⟨-, t', ad', x', -, -, h, h'⟩)
              · exact absurd h hno
              · injection h with h
                injection h with h
                subst h
                exact absurd hb (huge_not_small h' n hw)
          · rw [hx]
            constructor
            · intro h
              cases h
              exact .inr ⟨rfl, t, ad, x, rfl, hf, rfl, hh⟩
            · rintro (⟨-, h⟩ | ⟨rfl, -⟩)
              · exact absurd h hno
              · rfl
          · rw [hx]
            constructor
            · intro h; cases h
            · rintro (⟨-, h⟩ | ⟨-, t', ad', x', -, -, h, h'⟩)
              · exact absurd h hno
              · injection h with h
                injection h with h
                subst h
                cases h' with
                | whole _ _ hw _ => cases hw

/-- C60. `None` under `amount` is a `ValueError`, though nothing under `amount` is not: unlike the message and the
label, the amount must be left out. -/
theorem C60_dict_none (H : Hashes) (rest : Dict Value) (ad : Address) (t : Text)
    (ht : Dict.get? rest "address".toList = some (.text t)) (had : Address.fromString H t = .ok ad) :
    URI.new H (.dict (some none) rest) = .error .valueError ∧ URI.isValid H (.dict (some none) rest) = .ok false ∧
    URI.isValid H (.dict none rest) = .ok true := by
  have h1 : URI.new H (.dict (some none) rest) = .error .valueError := by rw [dict_eq, ht]; simp only [had]
  refine ⟨h1, by unfold URI.isValid; rw [h1]; rfl, ?_⟩
  unfold URI.isValid
  rw [dict_eq, ht]
  simp only [had]

/-- C60 is false of the code: `is_valid` of a dictionary with a valid address raises an `OverflowError` for an infinite
amount, and an `AttributeError` if the address is `None`. -/
theorem C60_dict_refuted (H : Hashes) (t : Text) (ad : Address) (had : Address.fromString H t = .ok ad) :
    URI.isValid H (.dict (some (some (.float (.inf false)))) [("address".toList, .text t)]) = .error .overflowError ∧
    URI.isValid H (.dict none [("address".toList, .none)]) = .error .attributeError :=
  ⟨(C60_dict_is_valid_partial _ _ _ _).2 (.inr ⟨rfl, t, ad, _, rfl, had, rfl, .infinite _⟩),
    (C60_dict_is_valid_partial _ _ _ _).2 (.inl ⟨rfl, fun _ h => by cases h⟩)⟩

/-- C60 is false of the code: `None` among the extras comes back as the text `None`, while `None` as a label or a message
vanishes. -/
theorem C60_none_refuted :
    uriAgain Hashes.toy ⟨exampleAddress, none, some .none, some .none, none, [("x".toList, .none)]⟩ =
      .ok ⟨exampleAddress, none, none, none, none, [("x".toList, .text "None".toList)]⟩ := by decide +kernel

/-! ## `is_valid` of a text -/

/-- C60. `is_valid` of a text is True exactly if the text has a meaning by the grammar of C109, raises exactly if the
amount is too large, and is False exactly if the text is refused for another reason.  (The claim says that it never
raises, and looks at the scheme.) -/
theorem C60_is_valid_grammar_partial (H : Hashes) (t : Text) :
    (URI.isValid H (.text t) = .ok true ↔ ∃ address es u, ReadsAs H t address es u) ∧
    (URI.isValid H (.text t) = .ok false ↔ ∃ e, e ≠ .overflowError ∧ NoUri H t e) ∧
    ∀ e, URI.isValid H (.text t) = .error e ↔ e = .overflowError ∧ ∃ address es s, UriParts t address es ∧
      LastEntry es "amount".toList s ∧ NoAmount s .overflowError := by
  have hover : NoUri H t .overflowError ↔ ∃ address es s, UriParts t address es ∧
      LastEntry es "amount".toList s ∧ NoAmount s .overflowError := by
    constructor
    · intro h
      cases h with
      | amount h1 h2 h3 => exact ⟨_, _, _, h1, h2, h3⟩
      | address _ _ h3 => exact absurd (fromString_caught h3) (by decide)
    · rintro ⟨_, _, _, h1, h2, h3⟩
      exact .amount h1 h2 h3
  rw [← hover]
  have hcaught : ∀ e, NoUri H t e → e ≠ .overflowError → URI.caught e = true := by
    intro e h hne
    cases h with
    | brackets => rfl
    | amount _ _ h3 =>
      cases h3 with
      | unicode => rfl
      | «syntax» => rfl
      | nan => rfl
      | infinite => exact absurd rfl hne
      | large => exact absurd rfl hne
    | address _ _ h3 => exact fromString_caught h3
  unfold URI.isValid
  cases hn : URI.new H (.text t) with
  | ok u =>
    have hno : ∀ e, ¬ NoUri H t e := fun e h => by
      rw [(C109_refused H t e).2 h] at hn
      cases hn
    obtain ⟨address, es, hr⟩ := C109_read H t u hn
    refine ⟨⟨fun _ => ⟨address, es, u, hr⟩, fun _ => rfl⟩, ⟨fun h => (by cases h), fun ⟨e, _, h⟩ => absurd h (hno e)⟩,
      fun e => ⟨fun h => (by cases h), fun ⟨_, h⟩ => absurd h (hno _)⟩⟩
  | error e =>
    have hu := (C109_refused H t e).1 hn
    have huniq : ∀ e', NoUri H t e' → e' = e := fun e' h => by
      rw [(C109_refused H t e').2 h] at hn
      injection hn
    have hr : ¬ ∃ address es u, ReadsAs H t address es u := by
      rintro ⟨address, es, u, hr⟩
      obtain ⟨ex, hx, -⟩ := C109_means H t address es u hr
      rw [hx] at hn
      cases hn
    by_cases he : e = .overflowError
    · subst he
      refine ⟨⟨fun h => (by cases h), fun h => absurd h hr⟩, ⟨fun h => (by cases h), ?_⟩, fun e => ⟨?_, ?_⟩⟩
      · rintro ⟨e', h1, h2⟩
        exact absurd (huniq e' h2) h1
      · intro h
        cases h
        exact ⟨rfl, hu⟩
      · rintro ⟨rfl, -⟩
        rfl
    · simp only [hcaught e hu he, if_true]
      refine ⟨⟨fun h => (by cases h), fun h => absurd h hr⟩, ⟨fun _ => ⟨e, he, hu⟩, fun _ => trivial⟩,
        fun e' => ⟨fun h => (by cases h), ?_⟩⟩
      rintro ⟨rfl, h⟩
      exact absurd (huniq _ h).symm he

/-- A dictionary with a fraction of a satoshi, a number and `None` as texts. -/
example : ∃ u, URI.new Hashes.toy (.dict (some (some (.float (.fin (-7 / 2)))))
      [("address".toList, .text "1pmuWZgV4nJVHaioT79ABVXxCGYGZAxwA".toList), ("label".toList, .none),
        ("x".toList, .num (.int 5))]) = .ok u ∧ u.address = exampleAddress ∧
      (∃ a, u.amount = some a ∧ ofSatoshis (.int (-3)) = .ok a) ∧
      u.label = some .none ∧ u.extras = [("x".toList, .num (.int 5))] := by
  have ha := ofSatoshis_small (n := -3) (by decide)
  refine ⟨⟨exampleAddress, some _, none, some .none, none, [("x".toList, .num (.int 5))]⟩,
    (C60_dict _ _ _ _).2 ⟨⟨_, rfl, by decide +kernel⟩, .inr ⟨_, -3, _, rfl, .negative _ _ ?_ ?_ ?_, ha, rfl⟩, rfl, rfl,
      rfl, by decide⟩, rfl, ⟨_, rfl, ha⟩, rfl, rfl⟩ <;> norm_num

end Bitforge
