import Verif.Spec.Bip21
import Verif.Props.UriRead

/-! # C110: payment requests of BIP 21 -/

namespace Bitforge
open Spec Url BtcUnit

theorem utf8_ascii {c : Char} (h : c.toNat < 128) : (String.utf8EncodeChar c).map UInt8.toNat = [c.toNat] := by
  unfold String.utf8EncodeChar
  have h1 : c.val.toNat ≤ 0x7f := Nat.lt_succ_iff.1 h
  simp only [h1, if_true, List.map_cons, List.map_nil]
  have : c.val.toNat.toUInt8.toNat = c.val.toNat := by
    rw [Nat.toUInt8_eq, UInt8.toNat_ofNat']
    exact Nat.mod_eq_of_lt (by omega)
  rw [this]
  rfl

theorem utf8_plain : ∀ {bs : List Nat} {u : Text}, Utf8 bs u → (∀ c ∈ u, c.toNat < 128) → bs = u.map Char.toNat := by
  intro bs u h hu
  unfold Utf8 at h
  rw [h]
  clear h
  induction u with
  | nil => rfl
  | cons c u ih =>
    rw [List.flatMap_cons, utf8_ascii (hu c (by simp)), ih fun c hc => hu c (by simp [hc])]
    rfl

theorem qchar_not {c : Char} (h : QChar c) : c ≠ '%' ∧ c ≠ '=' ∧ c ≠ '&' ∧ c ≠ '#' := by
  unfold QChar at h
  refine ⟨?_, ?_, ?_, ?_⟩ <;> rintro rfl <;> exact absurd h (by decide)

theorem hexDigit_not {c : Char} {x : Nat} (h : HexDigit c x) : c ≠ '=' ∧ c ≠ '&' ∧ c ≠ '#' := by
  rw [← hexDigit_iff] at h
  refine ⟨?_, ?_, ?_⟩ <;> rintro rfl
  · rw [show hexDigit? '=' = none by decide] at h; cases h
  · rw [show hexDigit? '&' = none by decide] at h; cases h
  · rw [show hexDigit? '#' = none by decide] at h; cases h

theorem qtext_not {t : Text} {bs : List Nat} (h : QText t bs) : '=' ∉ t ∧ '&' ∉ t ∧ '#' ∉ t := by
  induction h with
  | nil => simp
  | char hc _ ih =>
    obtain ⟨-, h1, h2, h3⟩ := qchar_not hc
    simp only [List.mem_cons, not_or]
    exact ⟨⟨Ne.symm h1, ih.1⟩, ⟨Ne.symm h2, ih.2.1⟩, ⟨Ne.symm h3, ih.2.2⟩⟩
  | escape ha hb _ ih =>
    obtain ⟨h1, h2, h3⟩ := hexDigit_not ha
    obtain ⟨k1, k2, k3⟩ := hexDigit_not hb
    simp only [List.mem_cons, not_or]
    exact ⟨⟨by decide, Ne.symm h1, Ne.symm k1, ih.1⟩, ⟨by decide, Ne.symm h2, Ne.symm k2, ih.2.1⟩,
      ⟨by decide, Ne.symm h3, Ne.symm k3, ih.2.2⟩⟩

/-- ASCII texts without plus signs are decoded as they should. -/
theorem qtext_decoded {t : Text} {bs : List Nat} (h : QText t bs) : ∀ {u : Text}, bs = u.map Char.toNat → '+' ∉ t → Decoded t u := by
  induction h with
  | nil =>
    intro u hu _
    have : u = [] := List.map_eq_nil_iff.1 hu.symm
    rw [this]
    exact .nil
  | @char c t bs hc _ ih =>
    intro u hu hp
    cases u with
    | nil => cases hu
    | cons x u =>
      rw [List.map_cons] at hu
      injection hu with h1 h2
      rw [List.mem_cons, not_or] at hp
      have : c = x := by rw [← Char.ofNat_toNat c, ← Char.ofNat_toNat x, h1]
      rw [← this]
      refine .char (Ne.symm hp.1) (fun a b x y r h => ?_) (ih h2 hp.2)
      injection h with h _
      exact absurd h (qchar_not hc).1
  | @escape a b x y t bs ha hb _ ih =>
    intro u hu hp
    cases u with
    | nil => cases hu
    | cons z u =>
      rw [List.map_cons] at hu
      injection hu with h1 h2
      simp only [List.mem_cons, not_or] at hp
      have : z = Char.ofNat (16 * x + y) := by rw [h1, Char.ofNat_toNat]
      rw [this]
      exact .escape ha hb (ih h2 hp.2.2.2)

theorem param_item {p : Text} {e : Text × Text} (h : Param p e) (hp : PlainParam e) (hplus : '+' ∉ p) : Item p e := by
  obtain ⟨k, v, bs, cs, rfl, hk, h1, h2, h3, h4⟩ := h
  rw [List.mem_append, List.mem_cons, not_or, not_or] at hplus
  have hv : v ≠ [] := by
    rintro rfl
    cases h2
    have := utf8_plain h4 hp.2.1
    exact hp.2.2 (List.map_eq_nil_iff.1 this.symm)
  exact ⟨k, v, rfl, (qtext_not h1).1, hv, qtext_decoded h1 (utf8_plain h3 hp.1) hplus.1,
    qtext_decoded h2 (utf8_plain h4 hp.2.1) hplus.2.2⟩

theorem param_not {p : Text} {e : Text × Text} (h : Param p e) : '&' ∉ p ∧ '#' ∉ p := by
  obtain ⟨k, v, bs, cs, rfl, hk, h1, h2, h3, h4⟩ := h
  simp only [List.mem_append, List.mem_cons, not_or]
  exact ⟨⟨(qtext_not h1).2.1, by decide, (qtext_not h2).2.1⟩, ⟨(qtext_not h1).2.2, by decide, (qtext_not h2).2.2⟩⟩

theorem intercalate_pieces : ∀ (parts : List Text), parts ≠ [] → (∀ p ∈ parts, ∀ c ∈ p, c ≠ '&' ∧ c ≠ ';') →
    Pieces (List.intercalate ['&'] parts) parts
  | [], h, _ => absurd rfl h
  | [p], _, h => by
    have : List.intercalate ['&'] [p] = p := by simp [List.intercalate]
    rw [this]
    exact .last (h p (by simp))
  | p :: q :: r, _, h => by
    have : List.intercalate ['&'] (p :: q :: r) = p ++ '&' :: List.intercalate ['&'] (q :: r) := by
      simp [List.intercalate, List.intersperse]
    rw [this]
    exact .more (h p (by simp)) (.inl rfl) (intercalate_pieces (q :: r) (by simp) fun x hx => h x (by simp [hx]))

theorem mem_intercalate {c : Char} : ∀ (parts : List Text), c ≠ '&' → c ∈ List.intercalate ['&'] parts → ∃ p ∈ parts, c ∈ p
  | [], _, h => by simp [List.intercalate] at h
  | [p], _, h => ⟨p, by simp, by simpa [List.intercalate] using h⟩
  | p :: q :: r, hc, h => by
    have : List.intercalate ['&'] (p :: q :: r) = p ++ '&' :: List.intercalate ['&'] (q :: r) := by
      simp [List.intercalate, List.intersperse]
    rw [this, List.mem_append, List.mem_cons] at h
    rcases h with h | h | h
    · exact ⟨p, by simp, h⟩
    · exact absurd h hc
    · obtain ⟨x, hx, h⟩ := mem_intercalate (q :: r) hc h
      exact ⟨x, by simp [List.mem_cons.1 hx], h⟩

theorem intercalate_mem {c : Char} : ∀ {parts : List Text} {p : Text}, p ∈ parts → c ∈ p → c ∈ List.intercalate ['&'] parts
  | [p], q, h, hc => by
    rw [List.mem_singleton] at h
    subst h
    simpa [List.intercalate] using hc
  | p :: q :: r, x, h, hc => by
    have : List.intercalate ['&'] (p :: q :: r) = p ++ '&' :: List.intercalate ['&'] (q :: r) := by
      simp [List.intercalate, List.intersperse]
    rw [this, List.mem_append, List.mem_cons]
    rcases List.mem_cons.1 h with rfl | h
    · exact .inl hc
    · exact .inr (.inr (intercalate_mem h hc))

/-- The scheme in any case. -/
theorem bitcoin_scheme {s : Text} (h : s.map Char.toLower = "bitcoin".toList) : s ≠ [] ∧ ':' ∉ s ∧ ∀ c ∈ s, SchemeChar c := by
  have hc : ∀ c ∈ s, SchemeChar c := by
    intro c hc
    have hm : c.toLower ∈ "bitcoin".toList := by rw [← h]; exact List.mem_map_of_mem hc
    have h1 : c.toLower.isAlpha = true := (by decide : ∀ x ∈ "bitcoin".toList, x.isAlpha = true) _ hm
    rw [← schemeChar_iff]
    have h2 : c.isAlphanum = true := by
      rw [alphanum_iff]
      have h3 : (65 ≤ c.toLower.toNat ∧ c.toLower.toNat ≤ 90) ∨ (97 ≤ c.toLower.toNat ∧ c.toLower.toNat ≤ 122) := by
        simp only [Char.isAlpha, Char.isUpper, Char.isLower, Bool.or_eq_true, Bool.and_eq_true, decide_eq_true_eq] at h1
        exact h1
      by_cases hu : 65 ≤ c.toNat ∧ c.toNat ≤ 90
      · exact .inr (.inl hu)
      · have : c.toLower = c := by
          unfold Char.toLower
          rw [dif_neg]
          exact hu
        rw [this] at h3
        omega
    unfold schemeChar
    rw [h2]
    rfl
  refine ⟨?_, fun hm => ?_, hc⟩
  · rintro rfl
    cases h
  · exact absurd (hc ':' hm) (by unfold SchemeChar; decide)

theorem bip21_parts {H : Hashes} {t address : Text} {es : List (Text × Text)} (h : Bip21 t address es)
    {b : Bytes} (hb : Base58Check H b address) (hne : address ≠ []) (hplus : '+' ∉ t) (hsemi : ';' ∉ t) (hes : ∀ e ∈ es, PlainParam e)
    (hd : es ≠ [] ∨ ∃ c ∈ address, c.isDigit = false) : UriParts t address es := by
  obtain ⟨s, parts, hs, hps, rfl⟩ := h
  obtain ⟨h1, h2, h3⟩ := bitcoin_scheme hs
  have halnum := address_chars hb
  have hnot : ∀ {c : Char}, c.isAlphanum = false → c ∉ address := fun hc hm => by rw [halnum _ hm] at hc; cases hc
  simp only [List.mem_append, List.mem_cons, not_or] at hplus hsemi
  have hparts : ∀ p ∈ parts, '+' ∉ p ∧ ';' ∉ p ∧ '&' ∉ p ∧ '#' ∉ p := by
    intro p hp
    have hpne : parts ≠ [] := List.ne_nil_of_mem hp
    rw [if_neg hpne, List.mem_cons, not_or] at hplus hsemi
    obtain ⟨e, -, he⟩ : ∃ e ∈ es, Param p e := by
      clear * - hps hp
      induction hps with
      | nil => cases hp
      | cons h _ ih =>
        rcases List.mem_cons.1 hp with rfl | hp
        · exact ⟨_, by simp, h⟩
        · obtain ⟨e, he, h⟩ := ih hp
          exact ⟨e, by simp [he], h⟩
    exact ⟨fun hm => hplus.2.2.2.2 (intercalate_mem hp hm), fun hm => hsemi.2.2.2.2 (intercalate_mem hp hm), (param_not he).1,
      (param_not he).2⟩
  have hitems : Items parts es := by
    clear * - hps hparts hes
    induction hps with
    | nil => exact .nil
    | cons h _ ih =>
      exact .item (param_item h (hes _ (by simp)) (hparts _ (by simp)).1)
        (ih (fun e he => hes e (by simp [he])) fun p hp => hparts p (by simp [hp]))
  have hempty : parts = [] ↔ es = [] := by
    cases hps with
    | nil => simp
    | cons => simp
  have hsch : Scheme (s ++ ':' :: (address ++ if parts = [] then [] else '?' :: List.intercalate ['&'] parts)) "bitcoin".toList
      (address ++ if parts = [] then [] else '?' :: List.intercalate ['&'] parts) := by
    rw [← hs]
    refine .some rfl ⟨h1, h2, .inr ⟨h3, .inr ?_⟩⟩
    rcases hd with hd | ⟨c, hc, hcd⟩
    · rw [if_neg (fun h => hd (hempty.1 h))]
      exact ⟨'?', by simp, .inr (by decide)⟩
    · refine ⟨c, by simp [hc], ?_⟩
      have := digit_iff c
      rw [hcd] at this
      have : ¬ (48 ≤ c.toNat ∧ c.toNat ≤ 57) := fun h => absurd (this.2 h) (by decide)
      omega
  have hau : ∀ x : Text, Authority (address ++ x) [] (address ++ x) := by
    intro x
    refine .none fun r hr => ?_
    obtain ⟨c, w, rfl⟩ := List.exists_cons_of_ne_nil hne
    rw [List.cons_append] at hr
    injection hr with hr
    exact hnot (c := '/') (by decide) (by rw [hr]; simp)
  have hhash : '#' ∉ List.intercalate ['&'] parts := by
    intro hm
    obtain ⟨p, hp, hm⟩ := mem_intercalate parts (by decide) hm
    exact (hparts p hp).2.2.2 hm
  have hpq : ∃ ps, PathQuery (address ++ if parts = [] then [] else '?' :: List.intercalate ['&'] parts) address
      (List.intercalate ['&'] parts) ∧ Pieces (List.intercalate ['&'] parts) ps ∧ Items ps es := by
    by_cases hp : parts = []
    · refine ⟨[[]], ⟨address, ⟨hnot (by decide), .inl (by rw [if_pos hp, List.append_nil])⟩, hnot (by decide), .inr ⟨rfl, ?_⟩⟩, ?_, ?_⟩
      · rw [hp]; rfl
      · rw [hp]; exact .last (by simp)
      · rw [hempty.1 hp]
        exact .skip (by rintro e ⟨a, b, h, -⟩; simp at h) .nil
    · refine ⟨parts, ⟨address ++ '?' :: List.intercalate ['&'] parts, ⟨?_, .inl (by rw [if_neg hp])⟩, hnot (by decide), .inl rfl⟩,
        intercalate_pieces parts hp fun p hpm c hc => ⟨?_, ?_⟩, hitems⟩
      · simp only [List.mem_append, List.mem_cons, not_or]
        exact ⟨hnot (by decide), by decide, hhash⟩
      · rintro rfl; exact (hparts p hpm).2.2.1 hc
      · rintro rfl; exact (hparts p hpm).2.1 hc
  obtain ⟨ps, hpq, hpieces, hit⟩ := hpq
  exact ⟨_, _, [], _, address, _, address, ps, hsch, hau _, by simp [Balanced], hpq, .inr ⟨by decide, rfl⟩,
    .inr ⟨hne, rfl⟩, hpieces, hit⟩

/-- A decimal number of satoshis up to the limit of the currency is read as that number or one less. -/
theorem amountOf_plain {s : Text} {n : Int} (h0 : 0 ≤ n) (h : n ≤ 21000000 * 10 ^ 8) (hs : PlainDecimal s ((n : ℚ) / 10 ^ 8)) :
    ∃ a, AmountOf s a ∧ (a.satoshis = n ∨ a.satoshis = n - 1) := by
  have hn : |n| ≤ 2 ^ 51 := by rw [abs_of_nonneg h0]; omega
  obtain ⟨b, hb, -⟩ := rnd_div (abs_sat_le hn) (s := 100000000) (by norm_num)
  obtain ⟨u, hu, hlo, -⟩ := back hn (by norm_num) (by norm_num) hb
  have hp : parseFloat s = .ok (.fin b) := by
    rw [parseFloat_signed (.inl (.inl hs)), ← hb]
    norm_num
  have hof : ofBtc (.float (.fin b)) = .ok u := by rw [ofBtc_eq]; exact hu
  rcases amount_cases [("amount".toList, s)] with ⟨h, -⟩ | ⟨s', hs', ⟨a, h1, h2, h3⟩ | ⟨e, h1, -⟩⟩
  · rw [Dict.get?_cons, if_pos rfl] at h; cases h
  · rw [Dict.get?_cons, if_pos rfl] at hs'
    injection hs' with hs'
    subst hs'
    refine ⟨a, h1, ?_⟩
    unfold URI.readAmount at h2
    rw [Dict.get?_cons, if_pos rfl] at h2
    simp only [hp, hof, bind, Except.bind, pure, Except.pure] at h2
    injection h2 with h2
    injection h2 with h2
    injection h2 with h2
    have := hlo h0
    omega
  · rw [Dict.get?_cons, if_pos rfl] at hs'
    injection hs' with hs'
    subst hs'
    exfalso
    have hfo := (C67_float s _).1 hp
    cases h1 with
    | unicode hc hn =>
      have := (C67_float_error s .unicodeEncodeError).2 (.inl ⟨rfl, _, hc, hn⟩)
      rw [hp] at this
      cases this
    | «syntax» _ hn => exact hn _ hfo
    | nan h => cases floatOf_unique h hfo
    | infinite h => cases floatOf_unique h hfo
    | large h hl =>
      have := floatOf_unique h hfo
      injection this with this
      rw [this] at hl
      rcases ofBtc_float (.fin b) with ⟨a, q, -, hq⟩ | ⟨hq, -⟩ | ⟨hq, -⟩
      · have : Float64.rnd (b * 10 ^ 8) = .fin q := by rw [← hq]; show _ = Float64.rnd (b * 100000000); norm_num
        exact absurd ((Float64.rnd_finite_iff _).1 ⟨q, this⟩) (not_lt.2 hl)
      · rw [hof] at hq; cases hq
      · rw [hof] at hq; cases hq

theorem lastEntry_mem {es : List (Text × Text)} (hu : (es.map Prod.fst).Nodup) (k v : Text) : LastEntry es k v ↔ (k, v) ∈ es := by
  constructor
  · rintro ⟨xs, ys, rfl, -⟩
    simp
  · intro h
    obtain ⟨xs, ys, rfl⟩ := List.append_of_mem h
    refine ⟨xs, ys, rfl, ?_⟩
    rw [List.map_append, List.map_cons, List.nodup_append, List.nodup_cons] at hu
    intro e he hk
    exact hu.2.1.1 (List.mem_map.2 ⟨e, he, hk⟩)

theorem fromString_ne {H : Hashes} {a : Text} {ad : Address} (h : Address.fromString H a = .ok ad) : a ≠ [] := by
  obtain ⟨b, -, -, -, hb58, -, -⟩ := (C16_from_string_iff H a ad).1 h
  rintro rfl
  have h1 := (a2b_iff _ _).2 hb58
  rw [show a2bBase58 [] = .ok [] by decide +kernel] at h1
  injection h1 with h1
  have := congrArg List.length h1
  simp [H.sha256_length] at this

/-- C110, for requests whose parameters are ASCII, without `+` and `;`, and not empty, up to one satoshi.  (Missing: the
other requests, which are misread, the last satoshi, and the rejection of unknown required parameters; see the
refutations.) -/
theorem C110_partial (H : Hashes) (t address : Text) (es : List (Text × Text)) (h : Bip21 t address es)
    (ad : Address) (had : Address.fromString H address = .ok ad) (hplus : '+' ∉ t) (hsemi : ';' ∉ t)
    (hes : ∀ e ∈ es, PlainParam e) (hu : (es.map Prod.fst).Nodup) (hd : es ≠ [] ∨ ∃ c ∈ address, c.isDigit = false)
    (ham : ∀ s, ("amount".toList, s) ∈ es → ∃ n : Int, 0 ≤ n ∧ n ≤ 21000000 * 10 ^ 8 ∧ PlainDecimal s ((n : ℚ) / 10 ^ 8)) :
    ∃ u, URI.new H (.text t) = .ok u ∧ u.address = ad ∧ ((∀ s, ("amount".toList, s) ∉ es) → u.amount = none) ∧
      (∀ s, ("amount".toList, s) ∈ es → ∃ (n : Int) (a : BtcUnit), PlainDecimal s ((n : ℚ) / 10 ^ 8) ∧ u.amount = some a ∧
        (a.satoshis = n ∨ a.satoshis = n - 1)) ∧
      (∀ v, u.message = some v ↔ ∃ s, ("message".toList, s) ∈ es ∧ v = .text s) ∧
      (∀ v, u.label = some v ↔ ∃ s, ("label".toList, s) ∈ es ∧ v = .text s) ∧
      (∀ k v, (k, v) ∈ u.extras ↔ k ∉ memberKeys ∧ ∃ s, (k, s) ∈ es ∧ v = .text s) := by
  obtain ⟨b, p, te, sc, hb, hab, hade⟩ := (C16_from_string_iff H address ad).1 had
  have hne := fromString_ne had
  have hparts := bip21_parts h hb hne hplus hsemi hes hd
  have hamount : ∀ s, LastEntry es "amount".toList s → ∃ (n : Int) (a : BtcUnit), PlainDecimal s ((n : ℚ) / 10 ^ 8) ∧ AmountOf s a ∧
      (a.satoshis = n ∨ a.satoshis = n - 1) := by
    intro s hs
    obtain ⟨n, h0, h1, h2⟩ := ham s ((lastEntry_mem hu _ _).1 hs)
    obtain ⟨a, h3, h4⟩ := amountOf_plain h0 h1 h2
    exact ⟨n, a, h2, h3, h4⟩
  rcases new_cases H t with ⟨address', es', u, h1, h2⟩ | ⟨e, h1, -⟩
  · obtain ⟨rfl, rfl⟩ := uriParts_unique hparts h1.parts
    have hlast : ∀ k v, LastEntry es k v ↔ (k, v) ∈ es := lastEntry_mem hu
    refine ⟨u, h2, ?_, ?_, ?_, ?_, ?_, ?_⟩
    · obtain ⟨b', p', te', sc', k4, k5, k6⟩ := h1.address
      rw [(C16_from_string_iff H address u.address).2 ⟨b', p', te', sc', k4, k5, k6⟩] at had
      injection had
    · intro hn
      rcases h1.amount with ⟨-, h⟩ | ⟨s, a, h, -⟩
      · exact h
      · exact absurd ((hlast _ _).1 h) (hn s)
    · intro s hs
      rcases h1.amount with ⟨h, -⟩ | ⟨s', a, h3, h4, h5⟩
      · exact absurd ((hlast _ _).2 hs) (h s)
      · obtain ⟨n, a', k1, k2, k3⟩ := hamount s ((hlast _ _).2 hs)
        rw [lastEntry_unique h3 ((hlast _ _).2 hs)] at h4
        rw [amountOf_unique k2 h4] at k3
        exact ⟨n, a, k1, h5, k3⟩
    · simpa only [hlast] using h1.message
    · simpa only [hlast] using h1.label
    · simpa only [hlast] using h1.extras.2
  · exfalso
    cases h1 with
    | brackets k1 k2 k3 => exact k3 (parts_balanced hparts k1 k2)
    | amount k1 k2 k3 =>
      obtain ⟨rfl, rfl⟩ := uriParts_unique hparts k1
      obtain ⟨n, a, -, h4, -⟩ := hamount _ k2
      exact (noAmount_iff k3).1 a h4
    | address k1 k2 k3 =>
      obtain ⟨rfl, rfl⟩ := uriParts_unique hparts k1
      rw [had] at k3
      cases k3

/-! ## Counterexamples -/

theorem qtext_plain : ∀ (t : Text), (∀ c ∈ t, QChar c) → QText t (t.map Char.toNat)
  | [], _ => .nil
  | c :: t, h => .char (h c (by simp)) (qtext_plain t fun c hc => h c (by simp [hc]))

/-- The request with one parameter. -/
def request (a q : Text) : Text := "bitcoin:".toList ++ a ++ '?' :: q

theorem request_bip21 (a : Text) {k v : Text} {cs : List Nat} {e : Text × Text} (hk : k ≠ []) (h1 : ∀ c ∈ k, QChar c) (h2 : QText v cs)
    (h3 : Utf8 (k.map Char.toNat) e.1) (h4 : Utf8 cs e.2) : Bip21 (request a (k ++ '=' :: v)) a [e] := by
  have hp : Param (k ++ '=' :: v) e := ⟨k, v, k.map Char.toNat, cs, rfl, hk, qtext_plain k h1, h2, h3, h4⟩
  have hs : "bitcoin".toList.map Char.toLower = "bitcoin".toList := by decide
  generalize k ++ '=' :: v = p at hp
  refine ⟨"bitcoin".toList, [p], hs, .cons hp .nil, ?_⟩
  rw [if_neg (List.cons_ne_nil _ _), show List.intercalate ['&'] [p] = p by simp [List.intercalate]]
  unfold request
  rw [List.append_assoc]
  rfl

theorem request_parts {H : Hashes} {a : Text} {ad : Address} (h : Address.fromString H a = .ok ad) {q : Text} (hq : '#' ∉ q)
    (hne : q ≠ []) : UriParts (request a q) a (parseQsl q) := by
  obtain ⟨b, -, -, -, hb58, -, -⟩ := (C16_from_string_iff H a ad).1 h
  have hp : urlparse (request a q) = .ok ⟨"bitcoin".toList, [], a, q⟩ := by
    have := urlparse_bitcoin (address_chars hb58) (fromString_ne h) hq (.inl hne)
    rw [if_pos hne] at this
    exact this
  rcases urlparse_cases (request a q) with ⟨_, _, _, _, _, _, _, h'⟩ | ⟨s, r, a', tail, path, query, p, h1, h2, h3, h4, h5, h6⟩
  · rw [hp] at h'; cases h'
  · rw [hp] at h6
    injection h6 with h6
    injection h6 with e1 e2 e3 e4
    subst e1 e2 e3 e4
    have hitems : Items ((splitAll '&' q).flatMap (splitAll ';')) (parseQsl q) := (items_iff _ _).1 rfl
    exact ⟨_, _, _, _, _, _, _, _, h1, h2, h3, h4, h5, .inr ⟨fromString_ne h, rfl⟩, (pieces_iff _ _).1 rfl, hitems⟩

/-- A request with a valid address and no amount is accepted. -/
theorem request_new {H : Hashes} {a : Text} {ad : Address} (h : Address.fromString H a = .ok ad) {q : Text} (hq : '#' ∉ q)
    (hne : q ≠ []) (ham : (∀ s, ¬ LastEntry (parseQsl q) "amount".toList s) ∨
      ∃ s a, LastEntry (parseQsl q) "amount".toList s ∧ AmountOf s a) :
    ∃ u, URI.new H (.text (request a q)) = .ok u ∧ ReadsAs H (request a q) a (parseQsl q) u := by
  have hparts := request_parts h hq hne
  rcases new_cases H (request a q) with ⟨address', es', u, h1, h2⟩ | ⟨e, h1, -⟩
  · obtain ⟨rfl, rfl⟩ := uriParts_unique hparts h1.parts
    exact ⟨u, h2, h1⟩
  · exfalso
    cases h1 with
    | brackets k1 k2 k3 => exact k3 (parts_balanced hparts k1 k2)
    | amount k1 k2 k3 =>
      obtain ⟨rfl, rfl⟩ := uriParts_unique hparts k1
      rcases ham with ham | ⟨s, a, ham, h'⟩
      · exact ham _ k2
      · rw [lastEntry_unique k2 ham] at k3
        exact (noAmount_iff k3).1 a h'
    | address k1 k2 k3 =>
      obtain ⟨rfl, rfl⟩ := uriParts_unique hparts k1
      rw [h] at k3
      cases k3

theorem no_amount {es : List (Text × Text)} (h : Dict.get? (Dict.ofItems es) "amount".toList = none) :
    ∀ s, ¬ LastEntry es "amount".toList s := fun s hs => by
  rw [(lastEntry_iff _ _ _).2 hs] at h
  cases h

/-- A label as it is read. -/
theorem request_label {H : Hashes} {a : Text} {ad : Address} (h : Address.fromString H a = .ok ad) {q v : Text} (hq : '#' ∉ q)
    (hne : q ≠ []) (ham : Dict.get? (Dict.ofItems (parseQsl q)) "amount".toList = none)
    (hl : Dict.get? (Dict.ofItems (parseQsl q)) "label".toList = some v) :
    ∃ u, URI.new H (.text (request a q)) = .ok u ∧ u.label = some (.text v) := by
  obtain ⟨u, h1, h2⟩ := request_new h hq hne (.inl (no_amount ham))
  exact ⟨u, h1, (h2.label _).2 ⟨v, (lastEntry_iff _ _ _).1 hl, rfl⟩⟩

/-- C110 is false of the code: a request with a required parameter that is unknown is accepted. -/
theorem C110_required_refuted (H : Hashes) (a : Text) (ad : Address) (h : Address.fromString H a = .ok ad) :
    Bip21 (request a "req-x=50".toList) a [("req-x".toList, "50".toList)] ∧
      ∃ u, URI.new H (.text (request a "req-x=50".toList)) = .ok u := by
  refine ⟨request_bip21 a (k := "req-x".toList) (v := "50".toList) (by decide) (by unfold QChar; decide)
    (qtext_plain _ (by unfold QChar; decide)) (by unfold Utf8; decide) (by unfold Utf8; decide), ?_⟩
  obtain ⟨u, h1, -⟩ := request_new h (q := "req-x=50".toList) (by decide) (by decide) (.inl (no_amount (by decide)))
  exact ⟨u, h1⟩

/-- C110 is false of the code: escapes are taken for Latin-1 instead of UTF-8. -/
theorem C110_utf8_refuted (H : Hashes) (a : Text) (ad : Address) (h : Address.fromString H a = .ok ad) :
    Bip21 (request a "label=%C3%A9".toList) a [("label".toList, "é".toList)] ∧
      ∃ u, URI.new H (.text (request a "label=%C3%A9".toList)) = .ok u ∧ u.label = some (.text "Ã©".toList) := by
  refine ⟨request_bip21 a (k := "label".toList) (v := "%C3%A9".toList) (cs := [0xC3, 0xA9]) (by decide) (by unfold QChar; decide) ?_
    (by unfold Utf8; decide) (by unfold Utf8; decide), request_label h (by decide) (by decide) (by decide) (by decide)⟩
  exact .escape (x := 12) (y := 3) (.inl (by decide)) (.inl (by decide))
    (.escape (x := 10) (y := 9) (.inl (by decide)) (.inl (by decide)) .nil)

/-- C110 is false of the code: a semicolon ends a label. -/
theorem C110_semicolon_refuted (H : Hashes) (a : Text) (ad : Address) (h : Address.fromString H a = .ok ad) :
    Bip21 (request a "label=a;b".toList) a [("label".toList, "a;b".toList)] ∧
      ∃ u, URI.new H (.text (request a "label=a;b".toList)) = .ok u ∧ u.label = some (.text "a".toList) :=
  ⟨request_bip21 a (k := "label".toList) (v := "a;b".toList) (by decide) (by unfold QChar; decide)
    (qtext_plain _ (by unfold QChar; decide)) (by unfold Utf8; decide) (by unfold Utf8; decide),
    request_label h (by decide) (by decide) (by decide) (by decide)⟩

/-- C110 is false of the code: a plus sign becomes a space. -/
theorem C110_plus_refuted (H : Hashes) (a : Text) (ad : Address) (h : Address.fromString H a = .ok ad) :
    Bip21 (request a "label=a+b".toList) a [("label".toList, "a+b".toList)] ∧
      ∃ u, URI.new H (.text (request a "label=a+b".toList)) = .ok u ∧ u.label = some (.text "a b".toList) :=
  ⟨request_bip21 a (k := "label".toList) (v := "a+b".toList) (by decide) (by unfold QChar; decide)
    (qtext_plain _ (by unfold QChar; decide)) (by unfold Utf8; decide) (by unfold Utf8; decide),
    request_label h (by decide) (by decide) (by decide) (by decide)⟩

/-- An amount as it is read. -/
theorem request_amount {H : Hashes} {a : Text} {ad : Address} (h : Address.fromString H a = .ok ad) {q s : Text} {n : Int} (hq : '#' ∉ q)
    (hne : q ≠ []) (ham : Dict.get? (Dict.ofItems (parseQsl q)) "amount".toList = some s)
    (hn : URI.readAmount [("amount".toList, s)] = .ok (some (.int n))) :
    ∃ u b, URI.new H (.text (request a q)) = .ok u ∧ u.amount = some b ∧ b.satoshis = n := by
  have hs : Dict.get? [("amount".toList, s)] "amount".toList = some s := by rw [Dict.get?_cons, if_pos rfl]
  rcases amount_cases [("amount".toList, s)] with ⟨h', -⟩ | ⟨s', hs', ⟨b, h1, h2, -⟩ | ⟨e, -, h'⟩⟩
  · rw [hs] at h'; cases h'
  · rw [hs] at hs'
    injection hs' with hs'
    subst hs'
    have hl := (lastEntry_iff _ _ _).1 ham
    obtain ⟨u, h3, h4⟩ := request_new h hq hne (.inr ⟨s, b, hl, h1⟩)
    rcases h4.amount with ⟨h5, -⟩ | ⟨s', b', h5, h6, h7⟩
    · exact absurd hl (h5 s)
    · rw [lastEntry_unique h5 hl] at h6
      rw [amountOf_unique h6 h1] at h7
      rw [hn] at h2
      injection h2 with h2
      injection h2 with h2
      injection h2 with h2
      exact ⟨u, b, h3, h7, h2.symm⟩
  · rw [hn] at h'; cases h'

/-- C110 is false of the code: of 0.29 bitcoins a satoshi is lost. -/
theorem C110_amount_refuted (H : Hashes) (a : Text) (ad : Address) (h : Address.fromString H a = .ok ad) :
    Bip21 (request a "amount=0.29".toList) a [("amount".toList, "0.29".toList)] ∧
      PlainDecimal "0.29".toList ((29000000 : ℚ) / 10 ^ 8) ∧
      ∃ u b, URI.new H (.text (request a "amount=0.29".toList)) = .ok u ∧ u.amount = some b ∧ b.satoshis = 28999999 := by
  refine ⟨request_bip21 a (k := "amount".toList) (v := "0.29".toList) (by decide) (by unfold QChar; decide)
    (qtext_plain _ (by unfold QChar; decide)) (by unfold Utf8; decide) (by unfold Utf8; decide), ?_,
    request_amount h (s := "0.29".toList) (by decide) (by decide) (by decide) (by decide +kernel)⟩
  refine ⟨"0".toList, "29".toList, by unfold Digits; decide, by unfold Digits; decide, by decide, .inl (by decide), ?_⟩
  have : digitsValue ("0".toList ++ "29".toList) = 29 := by decide
  rw [this, show "29".toList.length = 2 from rfl]
  norm_num

/-- C110 is false of the code: an amount that is not in the grammar is accepted, even if it is negative. -/
theorem C110_negative_refuted (H : Hashes) (a : Text) (ad : Address) (h : Address.fromString H a = .ok ad) :
    (∀ q, ¬ PlainDecimal "-1".toList q) ∧
      ∃ u b, URI.new H (.text (request a "amount=-1".toList)) = .ok u ∧ u.amount = some b ∧ b.satoshis = -100000000 := by
  refine ⟨?_, request_amount h (s := "-1".toList) (by decide) (by decide) (by decide) (by decide +kernel)⟩
  rintro q hq
  obtain ⟨c, r, hr, hc⟩ := literal_head (.inl hq)
  cases hr
  exact absurd hc (by decide)

/-- The hypotheses can be met: a request with an amount, an escape and an upper-case scheme. -/
example : ∃ t u, Bip21 t "1pmuWZgV4nJVHaioT79ABVXxCGYGZAxwA".toList [("amount".toList, "0.5".toList), ("label".toList, "a b".toList)] ∧
    URI.new Hashes.toy (.text t) = .ok u ∧ u.label = some (.text "a b".toList) := by
  have hb : Bip21 "BITCOIN:1pmuWZgV4nJVHaioT79ABVXxCGYGZAxwA?amount=0.5&label=a%20b".toList "1pmuWZgV4nJVHaioT79ABVXxCGYGZAxwA".toList
      [("amount".toList, "0.5".toList), ("label".toList, "a b".toList)] := by
    refine ⟨"BITCOIN".toList, ["amount=0.5".toList, "label=a%20b".toList], by decide, .cons ⟨"amount".toList, "0.5".toList, _, _, by decide,
      by decide, qtext_plain _ (by unfold QChar; decide), qtext_plain _ (by unfold QChar; decide), by unfold Utf8; decide, by unfold Utf8; decide⟩
      (.cons ⟨"label".toList, "a%20b".toList, _, [97, 32, 98], by decide, by decide, qtext_plain _ (by unfold QChar; decide), ?_, by unfold Utf8; decide,
        by unfold Utf8; decide⟩ .nil), by decide⟩
    exact .char (by unfold QChar; decide) (.escape (x := 2) (y := 0) (.inl (by decide)) (.inl (by decide))
      (.char (by unfold QChar; decide) .nil))
  obtain ⟨u, h1, -, -, -, -, h2, -⟩ := C110_partial Hashes.toy _ _ _ hb exampleAddress (by decide +kernel) (by decide) (by decide)
    (by unfold PlainParam; decide) (by decide) (.inl (by simp)) (by
      intro s hs
      have : s = "0.5".toList := by
        simp only [List.mem_cons, Prod.mk.injEq, List.not_mem_nil, or_false] at hs
        rcases hs with ⟨-, hs⟩ | ⟨hs, -⟩
        · exact hs
        · exact absurd hs (by decide)
      subst this
      refine ⟨50000000, by norm_num, by norm_num, "0".toList, "5".toList, by unfold Digits; decide, by unfold Digits; decide, by decide,
        .inl (by decide), ?_⟩
      have : digitsValue ("0".toList ++ "5".toList) = 5 := by decide
      rw [this, show "5".toList.length = 1 from rfl]
      norm_num)
  exact ⟨_, u, hb, h1, (h2 _).2 ⟨_, by simp, rfl⟩⟩

end Bitforge
