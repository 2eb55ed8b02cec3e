import Verif.RealHashes
import Verif.Proofs.Uri

/-! # Properties of `bitforge/uri.py` -/

namespace Bitforge
open Spec Url Float64 BtcUnit

/-! ## Amounts as text -/

theorem near_text {x b : ℚ} (hx : (10 : ℚ) ^ (-8 : Int) ≤ x) (hx' : x ≤ 2 ^ 53) (h : |b - x| ≤ x / 2 ^ 53) :
    0 < b ∧ Literal (positiveText b) (sig12Value b) ∧ (Decimal12 x → sig12Value b = x) := by
  have hx0 : 0 < x := lt_of_lt_of_le (ten_zpow_pos _) hx
  obtain ⟨hl, hr⟩ := abs_le.1 h
  have hsmall : x / 2 ^ 53 ≤ x / 2 := div_le_div_of_nonneg_left hx0.le (by norm_num) (by norm_num)
  have hb : 0 < b := by linarith
  refine ⟨hb, positiveText_literal hb ?_ ?_, fun h12 => (sig12_exact hx0 h12 h).2⟩
  · have : (10 : ℚ) ^ (-800 : Int) ≤ 10 ^ (-9 : Int) := zpow_le_zpow_right₀ (by norm_num) (by norm_num)
    norm_num at hx this ⊢
    linarith
  · have : (10 : ℚ) ^ (20 : Int) ≤ 10 ^ (800 : Int) := zpow_le_zpow_right₀ (by norm_num) (by norm_num)
    refine lt_of_lt_of_le ?_ this
    norm_num at hx' ⊢
    linarith

theorem btc_near {n : Int} (h0 : 0 < n) : |raw ((n : ℚ) / 100000000) - (n : ℚ) / 100000000| ≤ (n : ℚ) / 100000000 / 2 ^ 53 := by
  have hn : (1 : ℚ) ≤ n := by exact_mod_cast h0
  have hpos : (0 : ℚ) < (n : ℚ) / 100000000 := by positivity
  have := raw_error (q := (n : ℚ) / 100000000) (by
    rw [abs_of_pos hpos]
    have : (2 : ℚ) ^ (-1022 : Int) ≤ 2 ^ (-30 : Int) := zpow_le_zpow_right₀ (by norm_num) (by norm_num)
    refine le_trans this ?_
    norm_num
    linarith)
  rwa [abs_of_pos hpos] at this

theorem round12_neg {n m : Int} (h : Round12 n m) : Round12 (-n) (-m) := by
  obtain ⟨k, h1, h2, h3, h4⟩ := h
  refine ⟨k, by rwa [abs_neg], by rwa [abs_neg], (Int.dvd_neg).2 h3, ?_⟩
  rw [show -m - -n = -(m - n) by ring, abs_neg]
  exact h4

theorem sig12_log {q : ℚ} {j : Int} (h : 0 < q) (h1 : (10 : ℚ) ^ j ≤ q) (h2 : q < 10 ^ (j + 1)) : Int.log 10 q = j := by
  have a := (Int.zpow_le_iff_le_log (b := 10) (by norm_num) h).1 (by exact_mod_cast h1)
  have b := (Int.lt_zpow_iff_log_lt (b := 10) (by norm_num) h).1 (by exact_mod_cast h2)
  omega

/-- The 12 digits of an amount in bitcoins are those of the amount in satoshis. -/
theorem sig12_satoshis {n : Int} (h0 : 0 < n) (h : n ≤ 21000000 * 10 ^ 8) :
    ∃ m : Int, Round12 n m ∧ sig12Value (raw ((n : ℚ) / 100000000)) = (m : ℚ) / 100000000 := by
  have hnear := btc_near h0
  have hn1 : (1 : ℚ) ≤ n := by exact_mod_cast h0
  have hx : (0 : ℚ) < (n : ℚ) / 100000000 := by positivity
  have habs : |n| = n := abs_of_pos h0
  by_cases hs : n < 10 ^ 12
  · refine ⟨n, ⟨0, by rw [habs]; simpa using hs, .inl rfl, by simp, by simp⟩, ?_⟩
    exact (sig12_exact hx ⟨n, -8, by rw [habs]; exact hs, by norm_num; ring⟩ hnear).2
  · have key : ∀ k : Nat, 1 ≤ k → k ≤ 4 → 10 ^ (11 + k) ≤ n → n < 10 ^ (12 + k) →
        ∃ m : Int, Round12 n m ∧ sig12Value (raw ((n : ℚ) / 100000000)) = (m : ℚ) / 100000000 := by
      intro k hk1 hk4 hlo hhi
      by_cases he : n = 10 ^ (11 + k)
      · refine ⟨n, ⟨k, by rw [habs]; exact hhi, .inr (by rw [habs]; exact hlo), ?_, by simp⟩, ?_⟩
        · rw [he]; exact pow_dvd_pow _ (by omega)
        · refine (sig12_exact hx ⟨1, 3 + k, by norm_num, ?_⟩ hnear).2
          rw [he, zpow_add₀ (by norm_num), zpow_natCast, pow_add]
          push_cast
          norm_num
          ring
      · obtain ⟨l1, l2⟩ := abs_le.1 hnear
        set b := raw ((n : ℚ) / 100000000) with hb
        have hlo' : ((10 : Int) ^ (11 + k) + 1) ≤ n := by omega
        have hhi' : n ≤ (10 : Int) ^ (12 + k) - 1 := by omega
        have qlo : ((10 : ℚ) ^ (11 + k) + 1) ≤ n := by exact_mod_cast hlo'
        have qhi : (n : ℚ) ≤ (10 : ℚ) ^ (12 + k) - 1 := by exact_mod_cast hhi'
        have qh : (n : ℚ) ≤ 21000000 * 10 ^ 8 := by exact_mod_cast h
        have herr : (n : ℚ) / 100000000 / 2 ^ 53 < 1 / 400000000 := by
          norm_num at qh ⊢
          linarith
        have hb0 : 0 < b := by
          have : (1 : ℚ) / 400000000 < (n : ℚ) / 100000000 := by
            have : (100 : ℚ) ≤ n := by
              have : (100 : Int) ≤ n := by omega
              exact_mod_cast this
            linarith
          linarith
        have e3 : (10 : ℚ) ^ (11 + k) = 10 ^ (3 + k) * 100000000 := by rw [pow_add, pow_add]; norm_num; ring
        have e4 : (10 : ℚ) ^ (12 + k) = 10 ^ (4 + k) * 100000000 := by rw [pow_add, pow_add]; norm_num; ring
        rw [e3] at qlo
        rw [e4] at qhi
        have hlog : Int.log 10 b = 3 + k := by
          refine sig12_log hb0 ?_ ?_
          · rw [show (3 + k : Int) = ((3 + k : Nat) : Int) by push_cast; ring, zpow_natCast]
            linarith
          · rw [show (3 + k + 1 : Int) = ((4 + k : Nat) : Int) by push_cast; ring, zpow_natCast]
            linarith
        have hP : (10 : ℚ) ^ (3 + (k : Int) - 11) = 10 ^ k / 100000000 := by
          rw [show 3 + (k : Int) - 11 = (k : Int) - 8 by ring, zpow_sub₀ (by norm_num), zpow_natCast]
          norm_num
        have hv := sig12Value_eq hb0
        rw [hlog, hP] at hv
        have hr := roundEven_near (b / (10 ^ k / 100000000))
        set z := roundEven (b / (10 ^ k / 100000000)) with hz
        have hPk : (0 : ℚ) < 10 ^ k := by positivity
        refine ⟨z * 10 ^ k, ⟨k, by rw [habs]; exact hhi, .inr (by rw [habs]; exact hlo), Dvd.intro_left _ rfl, ?_⟩, ?_⟩
        · have h1 : |(z : ℚ) * 10 ^ k - b * 100000000| ≤ 10 ^ k / 2 := by
            have : (z : ℚ) * 10 ^ k - b * 100000000 = ((z : ℚ) - b / (10 ^ k / 100000000)) * 10 ^ k := by field_simp
            rw [this, abs_mul, abs_of_pos hPk]
            nlinarith
          have h2 : |b * 100000000 - n| < 1 / 4 := by
            rw [abs_lt]
            constructor <;> linarith
          have h3 : |(z : ℚ) * 10 ^ k - n| ≤ |(z : ℚ) * 10 ^ k - b * 100000000| + |b * 100000000 - n| := abs_sub_le _ _ _
          have h4 : 2 * |(z : ℚ) * 10 ^ k - n| < 10 ^ k + 1 := by linarith
          have h5 : 2 * |z * 10 ^ k - n| < 10 ^ k + 1 := by exact_mod_cast h4
          omega
        · rw [hv]; push_cast; ring
    by_cases h13 : n < 10 ^ 13
    · exact key 1 (by norm_num) (by norm_num) (by norm_num; omega) (by norm_num; omega)
    · by_cases h14 : n < 10 ^ 14
      · exact key 2 (by norm_num) (by norm_num) (by norm_num; omega) (by norm_num; omega)
      · by_cases h15 : n < 10 ^ 15
        · exact key 3 (by norm_num) (by norm_num) (by norm_num; omega) (by norm_num; omega)
        · exact key 4 (by norm_num) (by norm_num) (by norm_num; omega) (by norm_num; omega)

theorem literal_zero : Literal "0.0".toList 0 :=
  .inl ⟨['0'], ['0'], by simp [Digits], by simp [Digits], by simp, .inl rfl, by simp [digitsValue, Nat.ofDigits]⟩

/-- The text of an amount of satoshis in bitcoins. -/
theorem amountText {n : Int} (h : |n| ≤ 21000000 * 10 ^ 8) {b : ℚ} (hb : rnd ((n : ℚ) / 100000000) = .fin b) :
    ∃ v, SignedLiteral (floatText (.fin b)) v ∧ (Decimal12 ((n : ℚ) / 10 ^ 8) → v = (n : ℚ) / 10 ^ 8) ∧
      ∃ m : Int, Round12 n m ∧ v = (m : ℚ) / 10 ^ 8 := by
  rw [show (10 : ℚ) ^ 8 = 100000000 by norm_num]
  obtain ⟨rfl, -⟩ := rnd_fin hb
  have hpos : ∀ m : Int, 0 < m → m ≤ 21000000 * 10 ^ 8 → 0 < raw ((m : ℚ) / 100000000) ∧
      Literal (positiveText (raw ((m : ℚ) / 100000000))) (sig12Value (raw ((m : ℚ) / 100000000))) ∧
      (Decimal12 ((m : ℚ) / 100000000) → sig12Value (raw ((m : ℚ) / 100000000)) = (m : ℚ) / 100000000) := by
    intro m hm hm'
    have h1 : (1 : ℚ) ≤ m := by exact_mod_cast hm
    have h2 : (m : ℚ) ≤ 21000000 * 10 ^ 8 := by exact_mod_cast hm'
    refine near_text ?_ ?_ (btc_near hm)
    · norm_num; linarith
    · norm_num at h2 ⊢; linarith
  rcases lt_trichotomy n 0 with h0 | h0 | h0
  · have hb : |n| = -n := abs_of_neg h0
    obtain ⟨h1, h2, h3⟩ := hpos (-n) (by omega) (by omega)
    have e : ((-n : Int) : ℚ) / 100000000 = -((n : ℚ) / 100000000) := by push_cast; ring
    rw [e, raw_neg] at h1 h2 h3
    have hneg : raw ((n : ℚ) / 100000000) < 0 := by linarith
    refine ⟨-sig12Value (-raw ((n : ℚ) / 100000000)), .inr ⟨positiveText (-raw ((n : ℚ) / 100000000)), ?_, ?_⟩, ?_⟩
    · unfold floatText
      simp only
      rw [if_neg hneg.ne, if_neg hneg.not_gt]
    · rwa [neg_neg]
    · refine ⟨?_, ?_⟩
      · rintro ⟨m, e, hm, hv⟩
        rw [h3 ⟨-m, e, by rwa [abs_neg], by rw [hv]; push_cast; ring⟩, neg_neg]
      · obtain ⟨m, hm, hv⟩ := sig12_satoshis (n := -n) (by omega) (by omega)
        rw [e, raw_neg] at hv
        refine ⟨-m, by have := round12_neg hm; rwa [neg_neg] at this, ?_⟩
        rw [hv]; push_cast; ring
  · refine ⟨0, .inl ?_, fun _ => by rw [h0]; simp, 0, ⟨0, by rw [h0]; simp, .inl rfl, by simp, by rw [h0]; simp⟩, by simp⟩
    rw [h0]
    simp only [Int.cast_zero, zero_div, raw_zero]
    exact literal_zero
  · have hb : |n| = n := abs_of_pos h0
    obtain ⟨h1, h2, h3⟩ := hpos n h0 (by omega)
    refine ⟨sig12Value (raw ((n : ℚ) / 100000000)), .inl ?_, h3, sig12_satoshis h0 (by omega)⟩
    unfold floatText
    simp only
    rw [if_neg h1.ne', if_pos h1]
    exact h2

theorem signedLiteral_chars {t : Text} {q : ℚ} (h : SignedLiteral t q) : AsciiText t ∧ t ≠ [] := by
  rcases h with h | ⟨m, rfl, h⟩
  · obtain ⟨c, r, rfl, -⟩ := literal_head h
    exact ⟨fun c hc => (literalChar_nat (literal_chars h c hc)).2, by simp⟩
  · refine ⟨fun c hc => ?_, by simp⟩
    rcases List.mem_cons.1 hc with rfl | hc
    · decide
    · exact (literalChar_nat (literal_chars h c hc)).2

/-! ## The query -/

/-- An entry that survives the trip through a query. -/
def GoodEntry (e : Text × Value) : Prop :=
  AsciiText e.1 ∧ ∃ t, e.2.str = .ok t ∧ AsciiText t ∧ t ≠ []

/-- The text of a value. -/
def valueText (v : Value) : Text := (v.str.toOption).getD []

theorem goodEntry_text {e : Text × Value} (h : GoodEntry e) :
    e.2.str = .ok (valueText e.2) ∧ AsciiText (valueText e.2) ∧ valueText e.2 ≠ [] := by
  obtain ⟨-, t, h1, h2, h3⟩ := h
  have : valueText e.2 = t := by unfold valueText; rw [h1]; rfl
  rw [this]; exact ⟨h1, h2, h3⟩

theorem strItems_ok {items : List (Text × Value)} (h : ∀ e ∈ items, GoodEntry e) :
    URI.strItems items = .ok (items.map fun e => (e.1, valueText e.2)) := by
  induction items with
  | nil => rfl
  | cons e rest ih =>
    obtain ⟨k, v⟩ := e
    have hg := h (k, v) (by simp)
    simp only [URI.strItems, asciiText_ok hg.1, (goodEntry_text hg).1, ih fun e he => h e (by simp [he]), bind,
      Except.bind, pure, Except.pure, List.map_cons]

/-- A text attribute that is absent or a non-empty ASCII text. -/
def OptText (o : Option Value) : Prop := ∀ v, o = some v → ∃ t, v = .text t ∧ AsciiText t ∧ t ≠ []

theorem goodEntry_of_text {k t : Text} (hk : AsciiText k) (ht : AsciiText t) (hne : t ≠ []) : GoodEntry (k, .text t) :=
  ⟨hk, t, asciiText_ok ht, ht, hne⟩

theorem addMember_get {q : Dict Value} {key : String} {o : Option Value} (ho : OptText o) (k : Text) :
    Dict.get? (URI.addMember q key o) k = if key.toList = k then o.or (Dict.get? q k) else Dict.get? q k := by
  unfold URI.addMember
  cases o with
  | none => simp
  | some v =>
    obtain ⟨t, rfl, -, hne⟩ := ho v rfl
    simp only [Value.truthy, ne_eq, hne, not_false_eq_true, decide_true, if_true, Dict.get?_set]
    split <;> simp

theorem set_good {q : Dict Value} {k : Text} {v : Value} (hu : Dict.Unique q) (hq : ∀ e ∈ q, GoodEntry e)
    (hv : GoodEntry (k, v)) : Dict.Unique (Dict.set q k v) ∧ ∀ e ∈ Dict.set q k v, GoodEntry e := by
  refine ⟨Dict.unique_set hu k v, ?_⟩
  intro e he
  unfold Dict.set at he
  rcases List.mem_cons.1 he with rfl | he
  · exact hv
  · exact hq e (List.mem_filter.1 he).1

theorem addMember_good {q : Dict Value} {key : String} {o : Option Value} (ho : OptText o) (hk : AsciiText key.toList)
    (hu : Dict.Unique q) (hq : ∀ e ∈ q, GoodEntry e) :
    Dict.Unique (URI.addMember q key o) ∧ ∀ e ∈ URI.addMember q key o, GoodEntry e := by
  unfold URI.addMember
  cases o with
  | none => exact ⟨hu, hq⟩
  | some v =>
    obtain ⟨t, rfl, ht, hne⟩ := ho v rfl
    simp only [Value.truthy, ne_eq, hne, not_false_eq_true, decide_true, if_true]
    exact set_good hu hq (goodEntry_of_text hk ht hne)

/-- A `URI` whose texts are ASCII and not empty and whose amount, if any, is at most 21 million bitcoins. -/
structure OrdinaryUri (u : URI) : Prop where
  address : ∃ phash test isScript, phash.length = 20 ∧ u.address = ⟨phash, netOf test, typeOf isScript⟩
  unique : Dict.Unique u.extras
  extras : ∀ e ∈ u.extras, AsciiText e.1 ∧ e.1 ∉ URI.members ∧ ∃ t, e.2 = .text t ∧ AsciiText t ∧ t ≠ []
  message : OptText u.message
  label : OptText u.label
  r : OptText u.r
  amount : ∀ a, u.amount = some a → ∃ n : Int, ofSatoshis (.int n) = .ok a ∧ |n| ≤ 21000000 * 10 ^ 8

/-- What is under each key of the query. -/
theorem query_get {u : URI} (h : OrdinaryUri u) :
    Dict.get? u.query "amount".toList = u.amount.map (fun a => .num (.float a.btc)) ∧
    Dict.get? u.query "message".toList = u.message ∧ Dict.get? u.query "label".toList = u.label ∧
    Dict.get? u.query "r".toList = u.r ∧ Dict.get? u.query "address".toList = none ∧
    ∀ k, k ∉ URI.members → Dict.get? u.query k = Dict.get? u.extras k := by
  have hno : ∀ k ∈ URI.members, Dict.get? u.extras k = none := by
    intro k hk
    rw [Dict.get?_none]
    intro hm
    obtain ⟨e, he, rfl⟩ := List.mem_map.1 hm
    exact (h.extras e he).2.1 hk
  have h0 : ∀ k, Dict.get? (URI.addAmount u.extras u.amount) k = if "amount".toList = k then (u.amount.map fun a => .num (.float a.btc)).or (Dict.get? u.extras k)
        else Dict.get? u.extras k := by
    intro k
    unfold URI.addAmount
    cases u.amount with
    | none => simp
    | some a => simp only [Dict.get?_set, Option.map_some]; split <;> simp
  unfold URI.query
  simp only [addMember_get h.message, addMember_get h.label, addMember_get h.r, h0]
  refine ⟨?_, ?_, ?_, ?_, ?_, ?_⟩
  · rw [hno "amount".toList (by decide)]; simp
  · rw [hno "message".toList (by decide)]; simp
  · rw [hno "label".toList (by decide)]; simp
  · rw [hno "r".toList (by decide)]; simp
  · rw [hno "address".toList (by decide)]; simp
  · intro k hk
    have : ∀ s ∈ URI.members, s ≠ k := fun s hs e => hk (e ▸ hs)
    rw [if_neg (this _ (by decide)), if_neg (this _ (by decide)), if_neg (this _ (by decide)),
      if_neg (this _ (by decide))]

theorem query_good {u : URI} (h : OrdinaryUri u) : Dict.Unique u.query ∧ ∀ e ∈ u.query, GoodEntry e := by
  have hex : ∀ e ∈ u.extras, GoodEntry e := by
    intro e he
    obtain ⟨hk, -, t, hv, ht, hne⟩ := h.extras e he
    obtain ⟨k, v⟩ := e
    simp only at hv hk
    rw [hv]
    exact goodEntry_of_text hk ht hne
  have h0 : Dict.Unique (URI.addAmount u.extras u.amount) ∧ ∀ e ∈ URI.addAmount u.extras u.amount, GoodEntry e := by
    unfold URI.addAmount
    cases ha : u.amount with
    | none => exact ⟨h.unique, hex⟩
    | some a =>
      obtain ⟨n, hn, hb⟩ := h.amount a ha
      have hb' : |n| ≤ 2 ^ 53 := le_trans hb (by norm_num)
      obtain ⟨b, hbt, -⟩ := rnd_div hb' (s := 100000000) (by norm_num)
      rw [ofSatoshis_small hb', hbt] at hn
      injection hn with hn
      obtain ⟨v, hv, -⟩ := amountText hb hbt
      obtain ⟨h1, h2⟩ := signedLiteral_chars hv
      refine set_good h.unique hex ⟨(by unfold AsciiText; decide : AsciiText "amount".toList), floatText a.btc, rfl, ?_, ?_⟩
      · rw [← hn]; exact h1
      · rw [← hn]; exact h2
  have h1 := addMember_good (key := "message") h.message (by unfold AsciiText; decide) h0.1 h0.2
  have h2 := addMember_good (key := "label") h.label (by unfold AsciiText; decide) h1.1 h1.2
  exact addMember_good (key := "r") h.r (by unfold AsciiText; decide) h2.1 h2.2

/-- The text that `to_uri` makes. -/
theorem toUri_ok {H : Hashes} {u : URI} (h : OrdinaryUri u) :
    ∃ t items, u.address.toString H = .ok t ∧ (∀ c ∈ t, c.isAlphanum = true) ∧ t ≠ [] ∧
      Address.fromString H t = .ok u.address ∧ Plain items ∧ Dict.Unique items ∧
      items = (sortByKey u.query).map (fun e => (e.1, valueText e.2)) ∧
      u.toUri H = .ok ("bitcoin:".toList ++ t ++ (if queryText items ≠ [] then '?' :: queryText items else [])) := by
  obtain ⟨phash, test, isScript, hl, ha⟩ := h.address
  obtain ⟨-, ⟨t, ht, hf⟩, -⟩ := C15_roundtrip H phash hl test isScript
  rw [← ha] at ht hf
  obtain ⟨b, -, -, -, hb58, hab, -⟩ := (C16_from_string_iff H t u.address).1 hf
  have hne : t ≠ [] := by
    rintro rfl
    have h1 := (a2b_iff _ _).2 hb58
    rw [show a2bBase58 [] = .ok [] by decide +kernel] at h1
    injection h1 with h1
    have := congrArg List.length h1
    simp [H.sha256_length] at this
  obtain ⟨hu, hg⟩ := query_good h
  have hg' : ∀ e ∈ sortByKey u.query, GoodEntry e := fun e he => hg e ((sortByKey_perm _).mem_iff.1 he)
  have hplain : Plain ((sortByKey u.query).map fun e => (e.1, valueText e.2)) := by
    intro e he
    obtain ⟨x, hx, rfl⟩ := List.mem_map.1 he
    exact ⟨(hg' x hx).1, (goodEntry_text (hg' x hx)).2.1, (goodEntry_text (hg' x hx)).2.2⟩
  refine ⟨t, _, ht, address_chars hb58, hne, hf, hplain, ?_, rfl, ?_⟩
  · have := sortByKey_unique hu
    unfold Dict.Unique at this ⊢
    rw [List.map_map]
    exact this
  · unfold URI.toUri
    simp only [strItems_ok hg', bind, Except.bind, urlencode_ok fun e he => ⟨(hplain e he).1, (hplain e he).2.1⟩, ht,
      pure, Except.pure]

/-- What is under each key of the parsed query. -/
theorem items_get {u : URI} (k : Text) :
    Dict.get? ((sortByKey u.query).map fun e => (e.1, valueText e.2)) k = (Dict.get? u.query k).map valueText := by
  rw [Dict.get?_map, get?_sortByKey]

theorem optText_text {o : Option Value} (h : OptText o) : (o.map valueText).map Value.text = o := by
  cases o with
  | none => rfl
  | some v =>
    obtain ⟨t, rfl, ht, -⟩ := h v rfl
    have : valueText (.text t) = t := by
      show (asciiText t).toOption.getD [] = t
      rw [asciiText_ok ht]; rfl
    simp only [Option.map_some, this]

/-- `Unit(btc = x)` for a whole number of satoshis. -/
theorem ofBtc_again {f : Float64} {a : BtcUnit} (h : ofBtc (.float f) = .ok a) :
    ofSatoshis (.int a.satoshis) = .ok a := by
  have key : ∀ n v, setValues (.int n) = .ok v → v.satoshis = n := by
    intro n v hv
    unfold setValues at hv
    simp only [Num.toInt, bind, Except.bind] at hv
    cases h1 : scaled n bitsScale <;> rw [h1] at hv <;> simp only at hv
    · cases hv
    cases h2 : scaled n mbtcScale <;> rw [h2] at hv <;> simp only at hv
    · cases hv
    cases h3 : scaled n btcScale <;> rw [h3] at hv <;> simp only at hv
    · cases hv
    injection hv with hv
    rw [← hv]
  have hset : ∀ x : Num, setValues x = .ok a → setValues (.int a.satoshis) = .ok a := by
    intro x hx
    have : ∃ n, setValues x = setValues (.int n) := by
      cases hx' : x.toInt with
      | error e => unfold setValues at hx; rw [hx'] at hx; cases hx
      | ok n => exact ⟨n, by unfold setValues; rw [hx']; rfl⟩
    obtain ⟨n, hn⟩ := this
    rw [hn] at hx
    rw [key n a hx]; exact hx
  have : ofBtc (.float f) = setValues (.float (f.mul btcScale)) := by
    simp only [ofBtc, new, times, Num.toFloat, bind, Except.bind, pure, Except.pure]
  rw [this] at h
  exact hset _ h

theorem round12_bound {n m : Int} (h : Round12 n m) (hn : |n| ≤ 21000000 * 10 ^ 8) : |m| ≤ 2 ^ 51 := by
  obtain ⟨k, -, h2, -, h4⟩ := h
  have hk : (10 : Int) ^ k ≤ 10 ^ 4 := by
    rcases h2 with rfl | h2
    · norm_num
    · refine pow_le_pow_right₀ (by norm_num) ?_
      by_contra hlt
      have : (10 : Int) ^ 16 ≤ 10 ^ (11 + k) := pow_le_pow_right₀ (by norm_num) (by omega)
      norm_num at this hn
      omega
  have := abs_sub_abs_le_abs_sub m n
  norm_num at hk hn ⊢
  omega

/-- C60, first half, for ordinary URIs: `URI(u.to_uri())` has the same address, message, label, `r` and extras, no
amount if there was none, and otherwise the amount that `Unit(btc = …)` has, where the number of bitcoins is that of the
amount rounded to 12 significant digits.  (Missing: the amount itself, texts that are empty or not ASCII, and a URI
without query whose address consists of digits; the claim is false for these.) -/
theorem C60_roundtrip_partial (H : Hashes) (u : URI) (h : OrdinaryUri u)
    (hd : u.query ≠ [] ∨ ∀ t, u.address.toString H = .ok t → ∃ c ∈ t, c.isDigit = false) :
    ∃ t u', u.toUri H = .ok t ∧ URI.new H (.text t) = .ok u' ∧ u'.address = u.address ∧ u'.message = u.message ∧
      u'.label = u.label ∧ u'.r = u.r ∧ (∀ k, Dict.get? u'.extras k = Dict.get? u.extras k) ∧
      (u.amount = none → u'.amount = none) ∧
      ∀ a, u.amount = some a → ∃ m am a', Round12 a.satoshis m ∧
        (Decimal12 ((a.satoshis : ℚ) / 10 ^ 8) → m = a.satoshis ∧ am = a) ∧
        ofSatoshis (.int m) = .ok am ∧ ofBtc (.float am.btc) = .ok a' ∧ u'.amount = some a' := by
  obtain ⟨t, items, ht, htc, htn, htf, hplain, hiu, rfl, huri⟩ := toUri_ok (H := H) h
  set items := (sortByKey u.query).map fun e => (e.1, valueText e.2) with hitems
  obtain ⟨qa, qm, ql, qr, qad, qx⟩ := query_get h
  have hparse : URI.parse ("bitcoin:".toList ++ t ++ (if queryText items ≠ [] then '?' :: queryText items else [])) =
      .ok (Dict.set (Dict.ofItems items) "address".toList t) := by
    have hp := urlparse_bitcoin (a := t) (q := queryText items) htc htn (by
        intro hm
        rcases queryText_chars hplain _ hm with h | h | h
        · exact absurd h (by decide)
        · exact absurd h (by decide)
        · exact absurd h (by decide))
      (by
        rcases hd with hd | hd
        · left
          apply queryText_ne_nil
          intro hnil
          rw [hitems, List.map_eq_nil_iff] at hnil
          have := (sortByKey_perm u.query).length_eq
          rw [hnil] at this
          exact hd (List.length_eq_zero_iff.1 this.symm)
        · exact .inr (hd t ht))
    unfold URI.parse
    simp only [hp, bind, Except.bind, pure, Except.pure, parseQsl_queryText hplain]
    rw [if_pos htn]
  -- the dictionary
  have hget : ∀ k, Dict.get? (Dict.set (Dict.ofItems items) "address".toList t) k =
      if "address".toList = k then some t else (Dict.get? u.query k).map valueText := by
    intro k
    rw [Dict.get?_set, Dict.get?_ofItems items hiu, hitems, items_get]
  generalize Dict.set (Dict.ofItems items) "address".toList t = args at hparse hget
  have hamount : ∃ am : Option Num, URI.readAmount args = .ok am ∧ (u.amount = none → am = none) ∧
      ∀ a, u.amount = some a → ∃ m x a', Round12 a.satoshis m ∧
        (Decimal12 ((a.satoshis : ℚ) / 10 ^ 8) → m = a.satoshis ∧ x = a) ∧ ofSatoshis (.int m) = .ok x ∧
        ofBtc (.float x.btc) = .ok a' ∧ am = some (.int a'.satoshis) := by
    unfold URI.readAmount
    rw [hget, if_neg (by decide), qa]
    cases ha : u.amount with
    | none => exact ⟨none, rfl, fun _ => rfl, by simp⟩
    | some a =>
      obtain ⟨n, hn, hb⟩ := h.amount a ha
      have hb51 : |n| ≤ 2 ^ 51 := le_trans hb (by norm_num)
      have hb' : |n| ≤ 2 ^ 53 := abs_sat_le hb51
      obtain ⟨b, hbt, -⟩ := rnd_div hb' (s := 100000000) (by norm_num)
      rw [ofSatoshis_small hb', hbt] at hn
      injection hn with hn
      obtain ⟨v, hv, hv', m, hm, hvm⟩ := amountText hb hbt
      have hs : a.satoshis = n := by rw [← hn]
      have hbtc : a.btc = .fin b := by rw [← hn]
      have hm51 := round12_bound hm hb
      obtain ⟨c, hct, -⟩ := rnd_div (abs_sat_le hm51) (s := 100000000) (by norm_num)
      obtain ⟨a', ha', -⟩ := back hm51 (by norm_num) (by norm_num) hct
      have hx := ofSatoshis_small (abs_sat_le hm51)
      have hpf : parseFloat (floatText (.fin b)) = .ok (.fin c) := by
        rw [parseFloat_signed hv, hvm, show (10 : ℚ) ^ 8 = 100000000 by norm_num, hct]
      have hob : ofBtc (.float (.fin c)) = .ok a' := by rw [ofBtc_eq]; exact ha'
      refine ⟨some (.int a'.satoshis), ?_, by simp, ?_⟩
      · have : valueText (.num (.float a.btc)) = floatText (.fin b) := by rw [hbtc]; rfl
        simp only [Option.map_some, this, hpf, hob, bind, Except.bind, pure, Except.pure]
      · intro x hx'
        injection hx' with hx'
        subst hx'
        refine ⟨m, _, a', hs ▸ hm, fun h12 => ?_, hx, ?_, rfl⟩
        · rw [hs] at h12 ⊢
          have hmn : m = n := by
            have := hv' h12
            rw [hvm] at this
            have h8 : (m : ℚ) = n := by field_simp at this; linarith
            exact_mod_cast h8
          subst hmn
          refine ⟨rfl, ?_⟩
          rw [← hn, hbt]
        · show ofBtc (.float (rnd ((m : ℚ) / 100000000))) = _
          rw [hct]; exact hob
  obtain ⟨am, ham, ham0, ham1⟩ := hamount
  have hget2 : ∀ k, Dict.get? ((args.filter fun e => e.1 ≠ "amount".toList).map fun e => (e.1, Value.text e.2)) k =
      if k ≠ "amount".toList then (Dict.get? args k).map Value.text else none := by
    intro k
    rw [Dict.get?_map]
    have := Dict.get?_filter args (fun x => decide (x ≠ "amount".toList)) k
    rw [this]
    by_cases hk : k = "amount".toList
    · rw [if_neg (by simp [hk]), if_neg (by simp [hk])]; rfl
    · rw [if_pos (by simpa using hk), if_pos hk]
  generalize hrest : (args.filter fun e => e.1 ≠ "amount".toList).map (fun e => (e.1, Value.text e.2)) = rest at hget2
  have g1 : Dict.get? rest "address".toList = some (.text t) := by
    rw [hget2, if_pos (by decide), hget, if_pos rfl]; rfl
  have g2 : Dict.get? rest "message".toList = u.message := by
    rw [hget2, if_pos (by decide), hget, if_neg (by decide), qm, optText_text h.message]
  have g3 : Dict.get? rest "label".toList = u.label := by
    rw [hget2, if_pos (by decide), hget, if_neg (by decide), ql, optText_text h.label]
  have g4 : Dict.get? rest "r".toList = u.r := by
    rw [hget2, if_pos (by decide), hget, if_neg (by decide), qr, optText_text h.r]
  have g5 : ∀ k, Dict.get? (rest.filter fun e => e.1 ∉ URI.members) k = Dict.get? u.extras k := by
    intro k
    have := Dict.get?_filter rest (fun x => decide (x ∉ URI.members)) k
    rw [this]
    by_cases hk : k ∈ URI.members
    · rw [if_neg (by simpa using hk)]
      symm
      rw [Dict.get?_none]
      intro hm
      obtain ⟨e, he, rfl⟩ := List.mem_map.1 hm
      exact (h.extras e he).2.1 hk
    · have hne : ∀ s ∈ URI.members, s ≠ k := fun s hs e => hk (e ▸ hs)
      rw [if_pos (by simpa using hk), hget2, if_pos (Ne.symm (hne _ (by decide))), hget, if_neg (hne _ (by decide)), qx k hk]
      refine optText_text (o := Dict.get? u.extras k) ?_
      intro v hv
      obtain ⟨-, -, t, ht⟩ := h.extras _ (Dict.get?_mem hv)
      exact ⟨t, ht⟩
  have hamt : ∃ amount : Option BtcUnit, (match am with
        | some n => (BtcUnit.ofSatoshis n).map some
        | none => .ok none) = .ok amount ∧ (u.amount = none → amount = none) ∧
      ∀ a, u.amount = some a → ∃ m x a', Round12 a.satoshis m ∧
        (Decimal12 ((a.satoshis : ℚ) / 10 ^ 8) → m = a.satoshis ∧ x = a) ∧ ofSatoshis (.int m) = .ok x ∧
        ofBtc (.float x.btc) = .ok a' ∧ amount = some a' := by
    cases ha : u.amount with
    | none => exact ⟨none, by rw [ham0 ha], fun _ => rfl, by simp⟩
    | some a =>
      obtain ⟨m, x, a', h1, h2, h3, h4, h5⟩ := ham1 a ha
      refine ⟨some a', by rw [h5]; simp only [ofBtc_again h4, Except.map], by simp, ?_⟩
      intro y hy
      injection hy with hy
      exact hy ▸ ⟨m, x, a', h1, h2, h3, h4, rfl⟩
  obtain ⟨amount, h1, h2, h3⟩ := hamt
  refine ⟨_, ⟨u.address, amount, u.message, u.label, u.r, rest.filter fun e => e.1 ∉ URI.members⟩, huri, ?_, rfl, rfl,
    rfl, rfl, g5, h2, h3⟩
  unfold URI.new
  simp only [hparse, ham, bind, Except.bind]
  rw [hrest]
  unfold URI.buildFromDict
  simp only [g1, URI.readAddress, htf, bind, Except.bind, g2, g3, g4]
  cases am with
  | none => injection h1 with h1; subst h1; rfl
  | some n =>
    simp only [ofSatoshis] at h1
    simp only [Option.map, h1]
    rfl

/-- C60, the amounts: after the round trip, the amount is that rounded to 12 significant digits, or one satoshi nearer to
zero; it is the rounded amount if that is a multiple of 390625 satoshis (1/256 of a bitcoin).  Amounts of at most 12
significant digits, in particular those below 10000 bitcoins, are not rounded.  (Missing: see `C60_long_amount_refuted`.) -/
theorem C60_amount_partial (H : Hashes) (u : URI) (h : OrdinaryUri u) (a : BtcUnit) (ha : u.amount = some a) :
    ∃ t u' a' m, u.toUri H = .ok t ∧ URI.new H (.text t) = .ok u' ∧ u'.amount = some a' ∧ Round12 a.satoshis m ∧
      (0 ≤ a.satoshis → m - 1 ≤ a'.satoshis ∧ a'.satoshis ≤ m) ∧ (a.satoshis ≤ 0 → m ≤ a'.satoshis ∧ a'.satoshis ≤ m + 1) ∧
      (390625 ∣ m → a'.satoshis = m) ∧ (Decimal12 ((a.satoshis : ℚ) / 10 ^ 8) → m = a.satoshis) := by
  have hq : u.query ≠ [] := by
    intro hq
    have := (query_get h).1
    rw [hq, ha] at this
    cases this
  obtain ⟨t, u', h1, h2, -, -, -, -, -, -, h3⟩ := C60_roundtrip_partial H u h (.inl hq)
  obtain ⟨m, x, a', hm, h12, hx, h4, h5⟩ := h3 a ha
  obtain ⟨n, hn, hb⟩ := h.amount a ha
  have hs : a.satoshis = n := by
    rw [ofSatoshis_small (abs_sat_le (le_trans hb (by norm_num)))] at hn; injection hn with hn; rw [← hn]
  refine ⟨t, u', a', m, h1, h2, h5, hm, ?_⟩
  rw [hs] at hm h12 ⊢
  have hm51 := round12_bound hm hb
  have hsmall := ofSatoshis_small (abs_sat_le hm51)
  obtain ⟨b, hbt, -⟩ := rnd_div (abs_sat_le hm51) (s := 100000000) (by norm_num)
  obtain ⟨v, hv, hlo, hhi⟩ := back hm51 (by norm_num) (by norm_num) hbt
  have hbtc : x.btc = .fin b := by
    rw [hsmall] at hx; injection hx with hx; rw [← hx]; exact hbt
  have hva : v = a' := by
    rw [hbtc, ofBtc_eq, hv] at h4
    injection h4
  subst hva
  obtain ⟨k, k1, k2, k3, k4⟩ := hm
  have hsgn : (0 ≤ n → 0 ≤ m) ∧ (n ≤ 0 → m ≤ 0) := by
    have hk : (10 : Int) ^ k ≤ |n| ∨ k = 0 := by
      rcases k2 with k2 | k2
      · exact .inr k2
      · exact .inl (le_trans (pow_le_pow_right₀ (by norm_num) (by omega)) k2)
    have e := abs_le.1 (le_refl |m - n|)
    rcases hk with hk | rfl
    · constructor
      · intro h0; rw [abs_of_nonneg h0] at hk; omega
      · intro h0; rw [abs_of_nonpos h0] at hk; omega
    · rw [pow_zero] at k4; omega
  refine ⟨fun h0 => ?_, fun h0 => ?_, ?_, fun h' => (h12 h').1⟩
  · have := hlo (hsgn.1 h0); omega
  · have := hhi (hsgn.2 h0); omega
  · rintro ⟨j, hj⟩
    have hj' : |j * 390625| ≤ 2 ^ 53 := by rw [mul_comm, ← hj]; exact abs_sat_le hm51
    obtain ⟨y, y', hy, hy', hys⟩ := C59_btc_exact_partial j hj'
    rw [mul_comm, ← hj, hx] at hy
    injection hy with hy
    rw [← hy, h4] at hy'
    injection hy' with hy'
    rw [hy', hys, hj]; ring

/-- An amount of 13 digits (12345.67890123 bitcoins) and the one it becomes. -/
example : Round12 1234567890123 1234567890120 ∧ ¬ Round12 1234567890123 1234567890123 ∧
    Round12 (-999999999999) (-999999999999) := by
  refine ⟨⟨1, by decide, by decide, by decide, by decide⟩, ?_, ⟨0, by decide, by decide, by decide, by decide⟩⟩
  rintro ⟨k, h1, -, h3, -⟩
  rcases k with _ | k
  · exact absurd h1 (by decide)
  · have : (10 : Int) ∣ 1234567890123 := dvd_trans (dvd_pow_self 10 (Nat.succ_ne_zero k)) h3
    exact absurd this (by decide)

/-! ## `is_valid` -/

theorem fromBytes_error {b : Bytes} {e : Err} (h : Address.fromBytes b = .error e) :
    e = .addrInvalidBinaryLength ∨ e = .addrInvalidVersion := by
  obtain ⟨h1, h2⟩ := C16_from_bytes_reject b
  by_cases hl : b.length = 21
  · by_cases hv : ∀ v ∈ [(0x00 : Byte), 0x6f, 0x05, 0xc4], b.head? ≠ some v
    · rw [h2 hl hv] at h
      injection h with h
      exact .inr h.symm
    · exfalso
      push Not at hv
      obtain ⟨v, hv, hb⟩ := hv
      cases b with
      | nil => cases hb
      | cons x phash =>
        simp only [List.head?_cons, Option.some.injEq] at hb
        subst hb
        have hp : phash.length = 20 := by simpa using hl
        have ok : ∀ test isScript : Bool, x = pick (if isScript then p2shVersions else p2pkhVersions) test → False := by
          intro test isScript hx
          have := (C16_from_bytes_iff (x :: phash) _).2 ⟨phash, test, isScript, ⟨hp, by rw [hx]⟩, rfl⟩
          rw [this] at h
          cases h
        simp only [List.mem_cons, List.not_mem_nil, or_false] at hv
        rcases hv with rfl | rfl | rfl | rfl
        · exact ok false false rfl
        · exact ok true false rfl
        · exact ok false true rfl
        · exact ok true true rfl
  · rw [h1 hl] at h
    injection h with h
    exact .inl h.symm

/-- The errors of `Address.from_string` are all caught. -/
theorem fromString_caught {H : Hashes} {t : Text} {e : Err} (h : Address.fromString H t = .error e) :
    URI.caught e = true := by
  unfold Address.fromString at h
  cases hd : decodeBase58h H t with
  | error e' =>
    rw [hd] at h
    rcases decodeBase58h_error H t e' hd with rfl | ⟨rfl, -⟩
    · injection h with h; subst h; rfl
    · injection h with h; subst h; rfl
  | ok b =>
    rw [hd] at h
    simp only at h
    rcases fromBytes_error h with rfl | rfl <;> rfl

/-- The integer part of a finite `float` is not too large to be converted again. -/
theorem setValues_finite {q v : ℚ} (h : rnd q = .fin v) : ∃ a, setValues (.float (.fin v)) = .ok a := by
  obtain ⟨m, e, hm, -, he, hv⟩ := (rnd_nearest h).1
  rw [setValues_float]
  have hb : |(if 0 ≤ v then ⌊v⌋ else ⌈v⌉ : Int)| ≤ (2 ^ 53 - 1) * 2 ^ 971 := by
    have hm' : |(m : ℚ)| ≤ ((2 ^ 53 - 1 : Int) : ℚ) := by
      have : |m| ≤ 2 ^ 53 - 1 := by omega
      exact_mod_cast this
    have hv' : |v| ≤ ((2 ^ 53 - 1 : Int) : ℚ) * 2 ^ (971 : Nat) := by
      rw [hv, abs_mul, abs_of_pos (two_zpow_pos e)]
      refine mul_le_mul hm' ?_ (two_zpow_pos e).le (by norm_num)
      rw [← zpow_natCast]
      exact zpow_le_zpow_right₀ (by norm_num) (by exact_mod_cast he)
    have hcast : ((2 ^ 53 - 1 : Int) : ℚ) * 2 ^ (971 : Nat) = (((2 ^ 53 - 1) * 2 ^ 971 : Int) : ℚ) := by
      rw [Int.cast_mul, Int.cast_pow]; rfl
    rw [hcast] at hv'
    clear hcast hv h hm hm'
    generalize ((2 ^ 53 - 1) * 2 ^ 971 : Int) = K at hv'
    obtain ⟨h1, h2⟩ := abs_le.1 hv'
    rw [abs_le]
    split
    · next h0 =>
      refine ⟨?_, ?_⟩
      · rw [Int.le_floor]; push_cast; exact h1
      · have := Int.floor_le v
        exact_mod_cast this.trans h2
    · next h0 =>
      refine ⟨?_, ?_⟩
      · have := Int.le_ceil v
        have h3 : ((-K : Int) : ℚ) ≤ ((⌈v⌉ : Int) : ℚ) := by push_cast; exact h1.trans this
        exact_mod_cast h3
      · rw [Int.ceil_le]; exact h2
  obtain ⟨f, hf⟩ := (ofInt_ok_iff (if 0 ≤ v then ⌊v⌋ else ⌈v⌉)).2 (lt_of_le_of_lt hb (by decide +kernel))
  obtain ⟨x, rfl⟩ := ofInt_fin hf
  exact ⟨_, setValues_ok hf⟩

/-- `Unit(btc = f)` for a `float`. -/
theorem ofBtc_float (f : Float64) :
    (∃ a q, ofBtc (.float f) = .ok a ∧ f.mul btcScale = .fin q) ∨
    (ofBtc (.float f) = .error .valueError ∧ f.mul btcScale = .nan) ∨
    (ofBtc (.float f) = .error .overflowError ∧ ∃ neg, f.mul btcScale = .inf neg) := by
  have e : ofBtc (.float f) = setValues (.float (f.mul btcScale)) := by
    simp only [ofBtc, new, times, Num.toFloat, bind, Except.bind, pure, Except.pure]
  rw [e]
  have hr : ∀ q, f.mul btcScale = .fin q → ∃ p, rnd p = .fin q := by
    intro q hq
    cases f with
    | fin p => exact ⟨_, hq⟩
    | nan => cases hq
    | inf neg =>
      exfalso
      unfold Float64.mul btcScale at hq
      simp only at hq
      split at hq <;> cases hq
  cases hm : f.mul btcScale with
  | fin q =>
    obtain ⟨p, hp⟩ := hr q hm
    obtain ⟨a, ha⟩ := setValues_finite hp
    exact .inl ⟨a, q, ha, rfl⟩
  | nan => exact .inr (.inl ⟨by simp only [setValues, Num.toInt, Float64.toInt, bind, Except.bind], rfl⟩)
  | inf neg => exact .inr (.inr ⟨by simp only [setValues, Num.toInt, Float64.toInt, bind, Except.bind], neg, rfl⟩)

theorem parseFloat_caught {t : Text} {e : Err} (h : parseFloat t = .error e) : URI.caught e = true := by
  unfold parseFloat at h
  cases he : encodeDecimal t with
  | error e' =>
    rw [he] at h
    injection h with h
    rw [← h, (encodeDecimal_error he).1]
    rfl
  | ok t' =>
    rw [he] at h
    simp only at h
    split at h
    · cases h
    split at h
    · cases h
    split at h
    · injection h with h; subst h; rfl
    · cases h

theorem urlparse_caught {t : Text} {e : Err} (h : urlparse t = .error e) : URI.caught e = true := by
  unfold urlparse at h
  simp only at h
  generalize (if (splitScheme t).2.take 2 = "//".toList then splitNetloc (splitScheme t).2
    else ([], (splitScheme t).2)) = nl at h
  split at h
  · injection h with h; subst h; rfl
  · cases h

/-- The parsed dictionary contains an address. -/
theorem parse_address {t : Text} {args : Dict Text} (h : URI.parse t = .ok args) :
    ∃ a, Dict.get? args "address".toList = some a ∧ a <:+: t := by
  unfold URI.parse at h
  cases hp : urlparse t with
  | error e => rw [hp] at h; cases h
  | ok p =>
    rw [hp] at h
    simp only [bind, Except.bind, pure, Except.pure] at h
    injection h with h
    refine ⟨_, by rw [← h, Dict.get?_set, if_pos rfl], ?_⟩
    obtain ⟨h1, h2⟩ := urlparse_infix hp
    split
    · exact h1
    · exact h2

/-- How `URI(text)` goes on after the text has been split and the amount has been read. -/
theorem new_text {H : Hashes} {t : Text} {args : Dict Text} {am : Option Num} (hp : URI.parse t = .ok args)
    (ha : URI.readAmount args = .ok am) :
    ∃ a rest, Dict.get? args "address".toList = some a ∧ a <:+: t ∧
      Dict.get? rest "address".toList = some (.text a) ∧
      URI.new H (.text t) = URI.buildFromDict H (am.map some) rest := by
  obtain ⟨a, h1, h2⟩ := parse_address hp
  refine ⟨a, (args.filter fun e => e.1 ≠ "amount".toList).map (fun e => (e.1, Value.text e.2)), h1, h2, ?_, ?_⟩
  · rw [Dict.get?_map]
    have := Dict.get?_filter args (fun x => decide (x ≠ "amount".toList)) "address".toList
    rw [this, if_pos (by decide), h1]
    rfl
  · unfold URI.new
    simp only [hp, ha, bind, Except.bind]

/-- Reading the amount: it is a number of satoshis for a `Unit`, or fails. -/
theorem readAmount_cases (args : Dict Text) :
    (∃ am, URI.readAmount args = .ok am ∧ ∀ n, am = some n → ∃ u, ofSatoshis n = .ok u) ∨
    (∃ e, URI.readAmount args = .error e ∧ URI.caught e = true) ∨
    (URI.readAmount args = .error .overflowError ∧ ∃ text f neg, Dict.get? args "amount".toList = some text ∧
      parseFloat text = .ok f ∧ f.mul btcScale = .inf neg) := by
  unfold URI.readAmount
  cases hg : Dict.get? args "amount".toList with
  | none => exact .inl ⟨none, rfl, by simp⟩
  | some text =>
    simp only
    cases hf : parseFloat text with
    | error e => exact .inr (.inl ⟨e, rfl, parseFloat_caught hf⟩)
    | ok f =>
      simp only [bind, Except.bind, pure, Except.pure]
      rcases ofBtc_float f with ⟨a, q, h, -⟩ | ⟨h, -⟩ | ⟨h, neg, hi⟩
      · refine .inl ⟨some (.int a.satoshis), by rw [h], ?_⟩
        intro n hn
        injection hn with hn
        exact ⟨a, hn ▸ ofBtc_again h⟩
      · exact .inr (.inl ⟨.valueError, by rw [h], rfl⟩)
      · exact .inr (.inr ⟨by rw [h], text, f, neg, rfl, hf, hi⟩)

/-- Building a URI from a dictionary with an address and a good amount. -/
theorem build_cases {H : Hashes} {am : Option Num} {rest : Dict Value} {a : Text}
    (hr : Dict.get? rest "address".toList = some (.text a)) (ham : ∀ n, am = some n → ∃ u, ofSatoshis n = .ok u) :
    (∃ u ad, URI.buildFromDict H (am.map some) rest = .ok u ∧ Address.fromString H a = .ok ad) ∨
    ∃ e, URI.buildFromDict H (am.map some) rest = .error e ∧ URI.caught e = true := by
  unfold URI.buildFromDict
  simp only [hr, URI.readAddress]
  cases hf : Address.fromString H a with
  | error e => exact .inr ⟨e, rfl, fromString_caught hf⟩
  | ok ad =>
    left
    cases am with
    | none => exact ⟨_, ad, rfl, rfl⟩
    | some n =>
      obtain ⟨u, hu⟩ := ham n rfl
      unfold ofSatoshis at hu
      simp only [bind, Except.bind, Option.map, hu, Except.map]
      exact ⟨_, ad, rfl, rfl⟩

/-- C60: the only exception that escapes `is_valid` of a text is an `OverflowError`, and exactly if the text under
`amount` is a number that is infinite after multiplication by `10^8`.  (The claim says that there is none.) -/
theorem C60_is_valid_partial (H : Hashes) (t : Text) (e : Err) : URI.isValid H (.text t) = .error e ↔
    e = .overflowError ∧ ∃ args text f neg, URI.parse t = .ok args ∧ Dict.get? args "amount".toList = some text ∧
      parseFloat text = .ok f ∧ f.mul btcScale = .inf neg := by
  have hcaught : ∀ {e'}, URI.new H (.text t) = .error e' → URI.caught e' = true → URI.isValid H (.text t) = .ok false := by
    intro e' h1 h2
    unfold URI.isValid
    rw [h1]
    simp only [h2, if_true]
  cases hp : URI.parse t with
  | error e' =>
    have hc : URI.caught e' = true := by
      unfold URI.parse at hp
      cases hu : urlparse t with
      | error e'' => rw [hu] at hp; injection hp with hp; exact hp ▸ urlparse_caught hu
      | ok p => rw [hu] at hp; cases hp
    rw [hcaught (by unfold URI.new; simp only [hp, bind, Except.bind]) hc]
    simp
  | ok args =>
    rcases readAmount_cases args with ⟨am, h1, h2⟩ | ⟨e', h1, h2⟩ | ⟨h1, text, f, neg, h2⟩
    · obtain ⟨a, rest, -, -, hr, hnew⟩ := new_text (H := H) hp h1
      have : ∃ v, URI.isValid H (.text t) = .ok v := by
        rcases build_cases (H := H) hr h2 with ⟨u, ad, h3, -⟩ | ⟨e', h3, h4⟩
        · exact ⟨true, by unfold URI.isValid; rw [hnew, h3]⟩
        · exact ⟨false, hcaught (by rw [hnew, h3]) h4⟩
      obtain ⟨v, hv⟩ := this
      rw [hv]
      constructor
      · intro h; cases h
      · rintro ⟨-, args', text, f, neg, hargs, h3, h4, h5⟩
        exfalso
        injection hargs with hargs
        subst hargs
        unfold URI.readAmount at h1
        simp only [h3, h4, bind, Except.bind] at h1
        rcases ofBtc_float f with ⟨b, q, h, hq⟩ | ⟨h, hq⟩ | ⟨h, -⟩
        · rw [h5] at hq; cases hq
        · rw [h5] at hq; cases hq
        · rw [h] at h1; cases h1
    · rw [hcaught (by unfold URI.new; simp only [hp, h1, bind, Except.bind]) h2]
      constructor
      · intro h; cases h
      · rintro ⟨-, args', text, f, neg, hargs, h3, h4, h5⟩
        exfalso
        injection hargs with hargs
        subst hargs
        unfold URI.readAmount at h1
        simp only [h3, h4, bind, Except.bind] at h1
        rcases ofBtc_float f with ⟨b, q, h, hq⟩ | ⟨h, hq⟩ | ⟨h, -⟩
        · rw [h5] at hq; cases hq
        · rw [h5] at hq; cases hq
        · rw [h] at h1
          injection h1 with h1
          rw [← h1] at h2
          cases h2
    · have : URI.isValid H (.text t) = .error .overflowError := by
        unfold URI.isValid URI.new
        simp only [hp, h1, bind, Except.bind]
        rfl
      rw [this]
      constructor
      · intro h
        injection h with h
        exact ⟨h.symm, args, text, f, neg, rfl, h2⟩
      · rintro ⟨rfl, -⟩
        rfl

/-- C60: a text is valid only if some part of it is the text of an address.  (Missing: the scheme, which is not
looked at; see `C60_scheme_refuted`.) -/
theorem C60_is_valid_address_partial (H : Hashes) (t : Text) (h : URI.isValid H (.text t) = .ok true) :
    ∃ a b phash test isScript, a <:+: t ∧ Base58Check H b a ∧ AddressBytes phash test isScript b := by
  unfold URI.isValid at h
  cases hn : URI.new H (.text t) with
  | error e => rw [hn] at h; simp only at h; split at h <;> cases h
  | ok u =>
    cases hp : URI.parse t with
    | error e => unfold URI.new at hn; simp only [hp, bind, Except.bind] at hn; cases hn
    | ok args =>
      rcases readAmount_cases args with ⟨am, h1, h2⟩ | ⟨e', h1, h2⟩ | ⟨h1, -⟩
      · obtain ⟨a, rest, -, ha, hr, hnew⟩ := new_text (H := H) hp h1
        rcases build_cases (H := H) hr h2 with ⟨u, ad, h3, h4⟩ | ⟨e', h3, h4⟩
        · obtain ⟨b, phash, test, isScript, hb, hab, -⟩ := (C16_from_string_iff H a ad).1 h4
          exact ⟨a, b, phash, test, isScript, ha, hb, hab⟩
        · rw [hnew, h3] at hn; cases hn
      · unfold URI.new at hn; simp only [hp, h1, bind, Except.bind] at hn; cases hn
      · unfold URI.new at hn; simp only [hp, h1, bind, Except.bind] at hn; cases hn

/-- C60: an argument that is neither a text nor a dictionary is not valid. -/
theorem C60_is_valid_other (H : Hashes) : URI.isValid H .other = .ok false := rfl

/-! ## Counterexamples -/

theorem inf_overflows : parseFloat "inf".toList = .ok (.inf false) ∧ (Float64.inf false).mul btcScale = .inf false := by
  decide +kernel

/-- C60 is false of the code: `is_valid('bitcoin:…?amount=inf')` raises an `OverflowError`, whatever stands in the
place of the address. -/
theorem C60_is_valid_refuted (H : Hashes) (a : Text) (ha : ∀ c ∈ a, c.isAlphanum = true) (hne : a ≠ []) :
    URI.isValid H (.text ("bitcoin:".toList ++ a ++ "?amount=inf".toList)) = .error .overflowError := by
  rw [C60_is_valid_partial]
  refine ⟨rfl, Dict.set (Dict.ofItems (parseQsl "amount=inf".toList)) "address".toList a, "inf".toList, .inf false, false,
    ?_, ?_, inf_overflows⟩
  · have := urlparse_bitcoin (a := a) (q := "amount=inf".toList) ha hne (by decide) (.inl (by decide))
    rw [if_pos (by decide)] at this
    unfold URI.parse
    rw [show "bitcoin:".toList ++ a ++ "?amount=inf".toList = "bitcoin:".toList ++ a ++ '?' :: "amount=inf".toList by rfl,
      this]
    simp only [bind, Except.bind, pure, Except.pure]
    rw [if_pos hne]
  · rw [Dict.get?_set, if_neg (by decide)]
    decide

/-- The same for a finite number that is too large. -/
theorem C60_is_valid_large_refuted : URI.isValid Hashes.real (.text "bitcoin:x?amount=1e301".toList) = .error .overflowError := by
  decide +kernel

/-- C60 is false of the code: the scheme is not looked at, and need not be there. -/
theorem C60_scheme_refuted (H : Hashes) (a : Text) (ad : Address) (h : Address.fromString H a = .ok ad) :
    URI.isValid H (.text a) = .ok true ∧
    ∀ s, PlainScheme s → (∃ c ∈ a, c.isDigit = false) → URI.isValid H (.text (s ++ ':' :: a)) = .ok true := by
  obtain ⟨b, -, -, -, hb58, hab, -⟩ := (C16_from_string_iff H a ad).1 h
  have ha := address_chars hb58
  have hne : a ≠ [] := by
    rintro rfl
    have h1 := (a2b_iff _ _).2 hb58
    rw [show a2bBase58 [] = .ok [] by decide +kernel] at h1
    injection h1 with h1
    have := congrArg List.length h1
    simp [H.sha256_length] at this
  have main : ∀ t s, urlparse t = .ok ⟨s, [], a, []⟩ → URI.isValid H (.text t) = .ok true := by
    intro t s ht
    have hp : URI.parse t = .ok [("address".toList, a)] := by
      unfold URI.parse
      rw [ht]
      simp only [bind, Except.bind, pure, Except.pure]
      rw [if_pos hne]
      rfl
    have hn : URI.new H (.text t) = .ok ⟨ad, none, none, none, none, []⟩ := by
      unfold URI.new
      have h1 : URI.readAmount [("address".toList, a)] = .ok none := rfl
      simp only [hp, h1, bind, Except.bind]
      have h2 : (([("address".toList, a)] : Dict Text).filter fun e => e.1 ≠ "amount".toList) = [("address".toList, a)] := by
        rfl
      rw [h2]
      unfold URI.buildFromDict
      have h3 : Dict.get? ([("address".toList, a)].map fun e => (e.1, Value.text e.2)) "address".toList = some (.text a) := rfl
      simp only [h3, URI.readAddress, h, bind, Except.bind]
      rfl
    unfold URI.isValid
    rw [hn]
  refine ⟨main a [] (urlparse_bare ha hne), fun s hs hd => main _ (s.map Char.toLower) ?_⟩
  have := urlparse_scheme (q := []) hs ha hne (by simp) (.inr hd)
  simpa using this

example : PlainScheme "litecoin".toList := ⟨by decide, by decide, by decide⟩

/-- An address with the given hash. -/
def exampleAddress : Address := ⟨List.replicate 20 9, netOf false, typeOf false⟩

/-- Writing and reading again. -/
def uriAgain (H : Hashes) (u : URI) : Except Err URI := do URI.new H (.text (← u.toUri H))

/-- C60 is false of the code: of an amount of more than 12 significant digits (12345.67890123 bitcoins) the last ones
are lost. -/
theorem C60_long_amount_refuted :
    ((ofSatoshis (.int 1234567890123)).bind fun a =>
      (uriAgain Hashes.toy ⟨exampleAddress, some a, none, none, none, []⟩).map fun u' => u'.amount.map BtcUnit.satoshis) =
    .ok (some 1234567890120) := by
  decide +kernel

/-- C60 is false of the code: an empty extra is dropped. -/
theorem C60_blank_refuted :
    uriAgain Hashes.toy ⟨exampleAddress, none, none, none, none, [("x".toList, .text [])]⟩ =
      .ok ⟨exampleAddress, none, none, none, none, []⟩ := by
  decide +kernel

/-- C60 is false of the code: a number among the extras comes back as a text. -/
theorem C60_number_refuted :
    uriAgain Hashes.toy ⟨exampleAddress, none, none, none, none, [("x".toList, .num (.int 7))]⟩ =
      .ok ⟨exampleAddress, none, none, none, none, [("x".toList, .text "7".toList)]⟩ := by
  decide +kernel

/-- C60 is false of the code: `to_uri` raises a `UnicodeEncodeError` if a text is not ASCII. -/
theorem C60_unicode_refuted (H : Hashes) :
    URI.toUri H ⟨exampleAddress, none, some (.text "é".toList), none, none, []⟩ = .error .unicodeEncodeError := by
  unfold URI.toUri
  have : URI.strItems (sortByKey (URI.query ⟨exampleAddress, none, some (.text "é".toList), none, none, []⟩)) =
    .error .unicodeEncodeError := by decide
  rw [this]
  rfl

/-- C60 is false of the code: if the address consists of digits and there is no query, then the text after the colon
is taken for a port number and the whole text for the path.  The address is a real one, with the hash functions of
Bitcoin. -/
theorem C60_digits_refuted : ∃ ad : Address, Address.fromString Hashes.real "3639636346156916664485314444813883".toList =
    .ok ad ∧ uriAgain Hashes.real ⟨ad, none, none, none, none, []⟩ = .error .addrInvalidBase58h := by
  refine ⟨⟨[0x2f, 0xae, 0xcd, 0x63, 0xcd, 0x07, 0xe2, 0x31, 0x9d, 0xb1, 0xd8, 0xdc, 0x96, 0xd2, 0xa7, 0x89, 0x7a, 0xc7,
    0x0f, 0x45], Network.livenet, .script⟩, ?_, ?_⟩ <;> decide +kernel

/-- C60: a dictionary without address is an `AttributeError`, which `is_valid` does not catch. -/
theorem C60_no_address_refuted (H : Hashes) (amount : Option (Option Num)) (rest : Dict Value)
    (h : Dict.get? rest "address".toList = none) : URI.isValid H (.dict amount rest) = .error .attributeError := by
  unfold URI.isValid URI.new URI.buildFromDict
  simp only [h, bind, Except.bind]
  rfl

/-- A URI to which the round trip applies. -/
def exampleUri (a : BtcUnit) : URI :=
  ⟨exampleAddress, some a, some (.text "50% & more".toList), none, none, [("x=y".toList, .text "z+;".toList)]⟩

example : ∃ a, ofSatoshis (.int 2051) = .ok a ∧ OrdinaryUri (exampleUri a) ∧ a.satoshis = 2051 ∧
    Decimal12 ((2051 : ℚ) / 10 ^ 8) := by
  have ha := ofSatoshis_small (n := 2051) (by decide)
  refine ⟨_, ha, ⟨⟨_, false, false, rfl, rfl⟩, ?_, ?_, ?_, ?_, ?_, ?_⟩, rfl, 2051, -8, by norm_num, by norm_num⟩
  · unfold Dict.Unique exampleUri; decide
  · intro e he
    have : e = ("x=y".toList, .text "z+;".toList) := by simpa [exampleUri] using he
    subst this
    exact ⟨(by unfold AsciiText; decide : AsciiText "x=y".toList), (by decide : "x=y".toList ∉ URI.members), "z+;".toList,
      rfl, by unfold AsciiText; decide, by decide⟩
  · intro v hv
    injection hv with hv
    exact ⟨"50% & more".toList, hv.symm, by unfold AsciiText; decide, by decide⟩
  · intro v hv; cases hv
  · intro v hv; cases hv
  · intro x hx
    injection hx with hx
    exact ⟨2051, hx ▸ ha, by norm_num⟩

/-! ## C67: the amount in the text -/

/-- The number of bitcoins, rounded twice. -/
theorem amount_value {n : Int} (h0 : 0 < n) (h : n ≤ 21000000 * 10 ^ 8) : ∃ a b, ofSatoshis (.int n) = .ok a ∧
    a.btc = .fin b ∧ 0 < b ∧ |b - (n : ℚ) / 10 ^ 8| ≤ (n : ℚ) / 10 ^ 8 / 2 ^ 53 ∧ floatText a.btc = positiveText b ∧
    Literal (positiveText b) (sig12Value b) ∧ (Decimal12 ((n : ℚ) / 10 ^ 8) → sig12Value b = (n : ℚ) / 10 ^ 8) := by
  have hb : |n| ≤ 2 ^ 53 := by rw [abs_of_pos h0]; omega
  obtain ⟨b, hbt, -⟩ := rnd_div hb (s := 100000000) (by norm_num)
  obtain ⟨rfl, -⟩ := rnd_fin hbt
  have hn1 : (1 : ℚ) ≤ n := by exact_mod_cast h0
  have hn2 : (n : ℚ) ≤ 21000000 * 10 ^ 8 := by exact_mod_cast h
  have hnear := btc_near h0
  obtain ⟨h1, h2, h3⟩ := near_text (x := (n : ℚ) / 100000000) (by norm_num; linarith) (by norm_num at hn2 ⊢; linarith) hnear
  rw [show (10 : ℚ) ^ 8 = 100000000 by norm_num]
  refine ⟨_, _, ofSatoshis_small hb, hbt, h1, hnear, ?_, h2, h3⟩
  simp only [hbt]
  unfold floatText
  simp only
  rw [if_neg h1.ne', if_pos h1]

/-- C67: an amount from 10000 satoshis on is written as a plain decimal number; its value is the amount in bitcoins
if that has at most 12 significant digits, and differs from it by at most one part in `10^11` otherwise.  (Missing:
smaller amounts; see `C67_exponent_refuted`.) -/
theorem C67_plain_partial (n : Int) (h0 : 10000 ≤ n) (h : n ≤ 21000000 * 10 ^ 8) : ∃ a v, ofSatoshis (.int n) = .ok a ∧
    PlainDecimal (floatText a.btc) v ∧ (Decimal12 ((n : ℚ) / 10 ^ 8) → v = (n : ℚ) / 10 ^ 8) ∧
    |v - (n : ℚ) / 10 ^ 8| ≤ (n : ℚ) / 10 ^ 8 / 10 ^ 11 := by
  obtain ⟨a, b, h1, h2, h3, h4, h5, h6, h7⟩ := amount_value (n := n) (by omega) h
  have hn1 : (10000 : ℚ) ≤ n := by exact_mod_cast h0
  have hn2 : (n : ℚ) ≤ 21000000 * 10 ^ 8 := by exact_mod_cast h
  obtain ⟨l1, l2⟩ := abs_le.1 h4
  have herr := sig12_error h3
  obtain ⟨e1, e2⟩ := abs_le.1 herr
  refine ⟨a, sig12Value b, h1, ?_, h7, ?_⟩
  · rw [h5]
    refine positiveText_plain h3 ?_ ?_ h6
    · by_cases hn : n = 10000
      · rw [h7 ⟨1, -4, by norm_num, by rw [hn]; norm_num⟩, hn]
        norm_num
      · have hb : (10 : ℚ) ^ (-4 : Int) < b := by
          have : (10001 : ℚ) ≤ n := by
            have : 10001 ≤ n := by omega
            exact_mod_cast this
          norm_num at l1 ⊢
          linarith
        have := sig12_nearest h3 (10 ^ (-4 : Int)) ⟨1, -4, by norm_num, by norm_num⟩
        by_contra hlt
        push Not at hlt
        rw [abs_of_neg (by linarith), abs_of_neg (by linarith)] at this
        linarith
    · norm_num at e2 l2 hn2 ⊢
      linarith
  · rw [abs_le]
    norm_num at l1 l2 e1 e2 hn1 ⊢
    constructor <;> linarith

example : PlainDecimal "0.0002051".toList (2051 / 10000000) :=
  ⟨['0'], "0002051".toList, by unfold Digits; decide, by unfold Digits; decide, by simp, .inl rfl, by
    rw [show digitsValue (['0'] ++ "0002051".toList) = 2051 by decide, show "0002051".toList.length = 7 by decide]
    norm_num⟩

/-- C67 is false of the code: a positive amount below 10000 satoshis is written with an exponent, which BIP 21 does
not allow.  (The value is right.) -/
theorem C67_exponent_refuted (n : Int) (h0 : 0 < n) (h : n < 10000) : ∃ a, ofSatoshis (.int n) = .ok a ∧
    Literal (floatText a.btc) ((n : ℚ) / 10 ^ 8) ∧ ∀ v, ¬ PlainDecimal (floatText a.btc) v := by
  obtain ⟨a, b, h1, h2, h3, h4, h5, h6, h7⟩ := amount_value (n := n) h0 (by omega)
  have h12 : sig12Value b = (n : ℚ) / 10 ^ 8 :=
    h7 ⟨n, -8, by rw [abs_of_pos h0]; omega, by rw [div_eq_mul_inv]; congr 1⟩
  refine ⟨a, h1, by rw [h5, ← h12]; exact h6, fun v => not_plain ?_⟩
  rw [h5]
  refine positiveText_exponent h3 ?_
  rw [h12]
  have : (n : ℚ) < 10000 := by exact_mod_cast h
  norm_num
  linarith

/-- From `10^11` on there is an exponent. -/
theorem positiveText_large {q : ℚ} (h : 0 < q) (h1 : (10 : ℚ) ^ (11 : Int) ≤ sig12Value q) : 'e' ∈ positiveText q := by
  obtain ⟨p1, p2⟩ := sig12_point h
  have e1 : 11 < (sig12 q).2 + 12 := (zpow_lt_zpow_iff_right₀ (by norm_num : (1 : ℚ) < 10)).1 (lt_of_le_of_lt h1 p2)
  unfold positiveText layout
  rw [if_pos (by omega)]
  simp

/-- The numbers that round to `10^k` or more. -/
theorem sig12_ge_iff {q : ℚ} (h : 0 < q) (k : Int)
    (tie : q = 10 ^ k - 10 ^ (k - 12) / 2 → (10 : ℚ) ^ k ≤ sig12Value q) :
    (10 : ℚ) ^ k ≤ sig12Value q ↔ 10 ^ k - 10 ^ (k - 12) / 2 ≤ q := by
  have hu := ten_zpow_pos (k - 12)
  have hk : (10 : ℚ) ^ k = 10 ^ 12 * 10 ^ (k - 12) := by
    rw [show (10 : ℚ) ^ 12 = 10 ^ (12 : Int) by norm_cast, ← zpow_add₀ (by norm_num)]
    congr 1; omega
  constructor
  · intro hs
    by_contra hq
    push Not at hq
    have := sig12_nearest h ((999999999999 : Int) * (10 : ℚ) ^ (k - 12)) ⟨999999999999, k - 12, by norm_num, rfl⟩
    rw [hk] at hs hq
    generalize (10 : ℚ) ^ (k - 12) = u at *
    push_cast at this
    rw [abs_of_pos (by linarith), le_abs] at this
    rcases this with h | h <;> linarith
  · intro hq
    rcases eq_or_lt_of_le hq with hq | hq
    · exact tie hq.symm
    · by_contra hs
      push Not at hs
      have hn := sig12_nearest h (10 ^ k) ⟨1, k, by norm_num, by norm_num⟩
      have hlt : q < 10 ^ k := by
        by_contra hge
        push Not at hge
        rw [abs_of_neg (by linarith), abs_of_nonpos (by linarith)] at hn
        linarith
      rw [abs_of_pos (by linarith : 0 < (10 : ℚ) ^ k - q)] at hn
      obtain ⟨hn, -⟩ := abs_le.1 hn
      obtain ⟨p1, p2⟩ := sig12_point h
      have e1 : (sig12 q).2 + 11 < k := (zpow_lt_zpow_iff_right₀ (by norm_num : (1 : ℚ) < 10)).1 (lt_of_le_of_lt p1 hs)
      have e2 : k - 1 < (sig12 q).2 + 12 := by
        refine (zpow_lt_zpow_iff_right₀ (by norm_num : (1 : ℚ) < 10)).1 (lt_of_le_of_lt ?_ p2)
        rw [zpow_sub₀ (by norm_num), hk] at *
        generalize (10 : ℚ) ^ (k - 12) = u at *
        norm_num at *
        linarith
      have e : (sig12 q).2 = k - 12 := by omega
      have hd := (sig12_bounds h).2
      have hd' : ((sig12 q).1 : ℚ) ≤ 10 ^ 12 - 1 := by
        have : (sig12 q).1 + 1 ≤ 10 ^ 12 := hd
        have : ((sig12 q).1 : ℚ) + 1 ≤ 10 ^ 12 := by exact_mod_cast this
        linarith
      have hv : sig12Value q ≤ (10 ^ 12 - 1) * 10 ^ (k - 12) := by
        unfold sig12Value
        rw [e]
        exact mul_le_mul_of_nonneg_right hd' hu.le
      rw [hk] at *
      linarith

/-- C67 for every positive `float`: `str` writes a plain decimal number exactly from `0.0001` to `10^11`, up to the
rounding to 12 digits. -/
theorem C67_plain_iff_partial (q : ℚ) (h : 0 < q) : (∃ v, PlainDecimal (floatText (.fin q)) v) ↔
    1 / 10 ^ 4 - 5 / 10 ^ 17 ≤ q ∧ q < 10 ^ 11 - 1 / 20 := by
  have ht : floatText (.fin q) = positiveText q := by
    unfold floatText
    simp only
    rw [if_neg h.ne', if_pos h]
  have lo := sig12_ge_iff h (-4) (by rintro rfl; decide +kernel)
  have hi := sig12_ge_iff h 11 (by rintro rfl; decide +kernel)
  rw [ht, show (1 : ℚ) / 10 ^ 4 - 5 / 10 ^ 17 = 10 ^ (-4 : Int) - 10 ^ (-4 - 12 : Int) / 2 by norm_num, ← lo, ← not_le,
    show (10 : ℚ) ^ 11 - 1 / 20 = 10 ^ (11 : Int) - 10 ^ (11 - 12 : Int) / 2 by norm_num, ← hi]
  constructor
  · rintro ⟨v, hv⟩
    constructor
    · by_contra hlt
      push Not at hlt
      exact not_plain (positiveText_exponent h hlt) hv
    · intro hge
      exact not_plain (positiveText_large h hge) hv
  · rintro ⟨h1, h2⟩
    rw [hi] at h2
    refine ⟨_, positiveText_plain h h1 (by rw [hi.not.symm] at h2; exact not_le.1 h2) (positiveText_literal h ?_ ?_)⟩
    · rw [lo] at h1
      have : (10 : ℚ) ^ (-800 : Int) ≤ 10 ^ (-9 : Int) := zpow_le_zpow_right₀ (by norm_num) (by norm_num)
      norm_num at h1 this ⊢
      linarith
    · have : (10 : ℚ) ^ (20 : Int) ≤ 10 ^ (800 : Int) := zpow_le_zpow_right₀ (by norm_num) (by norm_num)
      refine lt_of_lt_of_le ?_ this
      push Not at h2
      norm_num at h2 ⊢
      linarith

example : ∃ v, PlainDecimal (floatText (.fin (3 / 2))) v := (C67_plain_iff_partial _ (by norm_num)).2 (by norm_num)
example : ¬ ∃ v, PlainDecimal (floatText (.fin (10 ^ 11))) v := by
  rw [C67_plain_iff_partial _ (by norm_num)]; norm_num

/-- C67: where the amount stands in the text. -/
theorem C67_text (H : Hashes) (ad : Address) (t : Text) (ht : ad.toString H = .ok t) (a : BtcUnit)
    (hsafe : ∀ c ∈ floatText a.btc, alwaysSafe c = true) : URI.toUri H ⟨ad, some a, none, none, none, []⟩ =
      .ok ("bitcoin:".toList ++ t ++ "?amount=".toList ++ floatText a.btc) := by
  have hascii : AsciiText (floatText a.btc) := by
    intro c hc
    have h1 := hsafe c hc
    simp only [alwaysSafe, Bool.or_eq_true, decide_eq_true_eq] at h1
    rcases h1 with ((h1 | rfl) | rfl) | rfl
    · simp only [Char.isAlphanum, Char.isAlpha, Char.isUpper, Char.isLower, Char.isDigit, Bool.or_eq_true,
        Bool.and_eq_true, decide_eq_true_eq, ge_iff_le, UInt32.le_iff_toNat_le] at h1
      show c.val.toNat < 128
      rcases h1 with (h1 | h1) | h1
      · exact lt_of_le_of_lt h1.2 (by decide)
      · exact lt_of_le_of_lt h1.2 (by decide)
      · exact lt_of_le_of_lt h1.2 (by decide)
    · decide
    · decide
    · decide
  have hquote : ∀ x : Text, (∀ c ∈ x, alwaysSafe c = true) → quotePlus x = x := by
    intro x hx
    induction x with
    | nil => rfl
    | cons c x ih =>
      rw [quotePlus_cons, ih fun c hc => hx c (by simp [hc])]
      unfold quoteChar
      rw [if_pos (hx c (by simp))]
      rfl
  have hi : URI.strItems (sortByKey (URI.query ⟨ad, some a, none, none, none, []⟩)) =
      .ok [("amount".toList, floatText a.btc)] := rfl
  have hu : urlencode [("amount".toList, floatText a.btc)] = .ok ("amount=".toList ++ floatText a.btc) := by
    have := urlencode_ok (items := [("amount".toList, floatText a.btc)]) (by
      intro e he
      rw [List.mem_singleton.1 he]
      exact ⟨(by unfold AsciiText; decide : AsciiText "amount".toList), hascii⟩)
    rw [this]
    unfold queryText
    simp only [hquote _ hsafe, hquote "amount".toList (by decide)]
    simp
  unfold URI.toUri
  simp only [hi, hu, ht, bind, Except.bind, pure, Except.pure]
  rw [if_pos (by simp)]
  simp

/-- C67: the amount is read as the closest `float` to the number written. -/
theorem C67_read (t : Text) (q : ℚ) (h : SignedLiteral t q) (v : ℚ) (hv : parseFloat t = .ok (.fin v)) : Rounded64 q v := by
  rw [parseFloat_signed h] at hv
  injection hv with hv
  exact rnd_rounded hv

end Bitforge
