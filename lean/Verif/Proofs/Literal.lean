import Verif.Spec.Messages
import Verif.Proofs.ScriptText

/-! # Literals: `repr` writes them, and they can be read in one way only -/

namespace Bitforge
open Spec StrValue

theorem hexValue_digit : ∀ n : Nat, n < 16 → HexValue (hexDigit n) n := by
  intro n h
  refine ⟨n, h, ?_, rfl⟩
  have : ∀ m : Fin 16, hexDigit m.val = "0123456789abcdef".toList.getD m.val ' ' := by decide
  exact this ⟨n, h⟩

theorem hexValue_unique {c : Char} {m n : Nat} (h : HexValue c m) (h' : HexValue c n) : m = n := by
  obtain ⟨i, hi, hc, rfl⟩ := h
  obtain ⟨j, hj, hc', rfl⟩ := h'
  have : ∀ i j : Fin 16, "0123456789abcdef".toList.getD i.val ' ' = "0123456789abcdef".toList.getD j.val ' ' → i = j := by
    decide
  exact congrArg Fin.val (this ⟨_, hi⟩ ⟨_, hj⟩ (hc.symm.trans hc'))

theorem hexNumber_unique {t : Text} {m n : Nat} (h : HexNumber t m) (h' : HexNumber t n) : m = n := by
  obtain ⟨ds, h1, rfl⟩ := h
  obtain ⟨ds', h2, rfl⟩ := h'
  have : ds = ds' := by
    induction h1 generalizing ds' with
    | nil => cases h2; rfl
    | cons h _ ih =>
      cases h2 with
      | cons h' h2 => rw [hexValue_unique h h', ih _ h2]
  rw [this]

theorem hexCode_length (n code : Nat) : (hexCode n code).length = n := by
  induction n generalizing code with
  | zero => rfl
  | succ n ih => simp [hexCode, ih]

theorem hexCode_number (n code : Nat) (h : code < 16 ^ n) : HexNumber (hexCode n code) code := by
  induction n generalizing code with
  | zero =>
    refine ⟨[], .nil, ?_⟩
    have : code = 0 := by simpa using h
    rw [this]; rfl
  | succ n ih =>
    obtain ⟨ds, h1, h2⟩ := ih (code / 16) (by rw [pow_succ] at h; omega)
    refine ⟨ds ++ [code % 16], ?_, ?_⟩
    · exact List.rel_append h1 (.cons (hexValue_digit _ (Nat.mod_lt _ (by decide))) .nil)
    · unfold hornerValue at *
      rw [List.foldl_append, ← h2]
      simp only [List.foldl_cons, List.foldl_nil]
      omega

theorem quote_cases {q : Char} (h : q ∈ ['\'', '"']) : q = '\'' ∨ q = '"' := by simpa using h

theorem body_escape {uni : Bool} {q : Char} (hq : q ∈ ['\'', '"']) {code : Nat} (hc : code.isValidChar)
    (hu : code < 256 ∨ uni = true) {t : Text} {v : List Nat} (h : Body uni q t v) :
    Body uni q (escape q code ++ t) (code :: v) := by
  unfold escape
  split
  · next h1 =>
    refine Body.letter ?_ h
    rcases h1 with rfl | rfl
    · rcases quote_cases hq with rfl | rfl <;> decide
    · simp [escapes]
  · next h1 =>
    rw [not_or] at h1
    have hn : ∀ k, 13 < k → k ∉ [9, 10, 13] := by intro k hk; simp only [List.mem_cons, List.not_mem_nil, or_false]; omega
    split
    · next h2 =>
      refine Body.hex (.inr (by omega)) (hn _ (by omega)) (fun _ => hu.resolve_left (by omega))
        (by unfold hexEscape; rw [if_neg (by omega), if_neg (by omega)]) (hexCode_length _ _) (hexCode_number _ _ ?_) h
      rcases hc with hc | hc <;> omega
    · split
      · refine Body.hex (.inr (by omega)) (hn _ (by omega)) (fun _ => hu.resolve_left (by omega))
          (by unfold hexEscape; rw [if_neg (by omega), if_pos (by omega)]) (hexCode_length _ _) (hexCode_number _ _ ?_) h
        omega
      · split
        · next h9 => subst h9; exact Body.letter (by simp [escapes]) h
        · split
          · next h9 => subst h9; exact Body.letter (by simp [escapes]) h
          · split
            · next h9 => subst h9; exact Body.letter (by simp [escapes]) h
            · split
              · refine Body.hex (by assumption) ?_ (fun _ => by omega) (by unfold hexEscape; rw [if_pos (by omega)])
                  (hexCode_length _ _) (hexCode_number _ _ (by omega)) h
                simp only [List.mem_cons, List.not_mem_nil, or_false]; omega
              · have hn : (Char.ofNat code).toNat = code := by
                  unfold Char.ofNat
                  rw [dif_pos hc]
                  rfl
                have hb := Body.char (uni := uni) (q := q) (c := Char.ofNat code) (t := t) (v := v) ?_ ?_ ?_ ?_ h
                · rw [hn] at hb; exact hb
                · intro e; rw [← e, hn] at h1; exact h1.1 rfl
                · intro e; have := congrArg Char.toNat e; rw [hn] at this; exact h1.2 this
                · rw [hn]; omega
                · rw [hn]; omega

theorem quote_mem (codes : List Nat) : quote codes ∈ ['\'', '"'] := by
  unfold quote; split <;> simp

theorem quotes_iff (q : Char) (v : List Nat) : Quotes q v ↔ q = quote v := by
  unfold Quotes quote
  by_cases h : 39 ∈ v ∧ 34 ∉ v
  · rw [if_pos h]; simp [h]
  · rw [if_neg h]
    exact ⟨fun | .inl ⟨_, h'⟩ => absurd h' h | .inr ⟨h', _⟩ => h', fun h' => .inr ⟨h', h⟩⟩

theorem body_codes {uni : Bool} {q : Char} (hq : q ∈ ['\'', '"']) : ∀ codes : List Nat,
    (∀ c ∈ codes, c.isValidChar ∧ (c < 256 ∨ uni = true)) → Body uni q (codes.map (escape q)).flatten codes
  | [], _ => .nil
  | c :: cs, h => by
    have hc := h c (by simp)
    exact body_escape hq hc.1 hc.2 (body_codes hq cs fun x hx => h x (by simp [hx]))

theorem byte_valid (b : Byte) : b.val.isValidChar ∧ b.val < 256 := ⟨.inl (by omega), b.isLt⟩

theorem body_bytes (b : Bytes) : Body false (quote (b.map Fin.val)) ((b.map Fin.val).map (escape (quote (b.map Fin.val)))).flatten
    (b.map Fin.val) :=
  body_codes (quote_mem _) _ fun c hc => by
    obtain ⟨x, -, rfl⟩ := List.mem_map.1 hc
    exact ⟨(byte_valid x).1, .inl (byte_valid x).2⟩

/-- `repr` writes literals. -/
theorem literal_repr (v : StrValue) : IsLiteral v.repr v := by
  cases v with
  | str b => exact .str ((quotes_iff _ _).2 rfl) (body_bytes b)
  | bytearray b =>
    have := IsLiteral.bytearray ((quotes_iff _ _).2 rfl) (body_bytes b)
    unfold StrValue.repr quoted
    simpa using this
  | unicode t =>
    refine .unicode ((quotes_iff _ _).2 rfl) (body_codes (quote_mem _) _ fun c hc => ?_)
    obtain ⟨x, -, rfl⟩ := List.mem_map.1 hc
    exact ⟨x.valid, .inr rfl⟩

theorem escapes_unique {q : Char} (hq : q ∈ ['\'', '"']) : ∀ p ∈ escapes q, ∀ p' ∈ escapes q, p.1 = p'.1 → p.2 = p'.2 := by
  rcases quote_cases hq with rfl | rfl <;> decide

theorem hexEscape_mem {n : Nat} {k : Char} {len : Nat} (h : hexEscape n = (k, len)) :
    (k, len) ∈ [('x', 2), ('u', 4), ('U', 8)] := by
  rw [← h]
  unfold hexEscape
  split
  · simp
  · split <;> simp

theorem body_unique {uni : Bool} {q : Char} (hm : q ∈ ['\'', '"']) {t t' : Text} {v v' : List Nat} (h : Body uni q t v)
    (h' : Body uni q t' v') {s s' : Text} (e : t ++ q :: s = t' ++ q :: s') : t = t' ∧ v = v' ∧ s = s' := by
  have hq : q ≠ '\\' := by rcases quote_cases hm with rfl | rfl <;> decide
  have hd : ∀ k len, (k, len) ∈ [('x', 2), ('u', 4), ('U', 8)] → ∀ n, (k, n) ∉ escapes q := by
    intro k len hk n hn
    have : ∀ p ∈ [('x', 2), ('u', 4), ('U', 8)], ∀ p' ∈ escapes q, p.1 ≠ p'.1 := by
      rcases quote_cases hm with rfl | rfl <;> decide
    exact this _ hk _ hn rfl
  have hl : ∀ p ∈ [('x', 2), ('u', 4), ('U', 8)], ∀ p' ∈ [('x', 2), ('u', 4), ('U', 8)], p.1 = p'.1 → p.2 = p'.2 := by
    decide
  induction h generalizing t' v' with
  | nil =>
    cases h' with
    | nil => simpa using e
    | char h1 => simp only [List.nil_append, List.cons_append, List.cons.injEq] at e; exact absurd e.1.symm h1
    | letter => simp only [List.nil_append, List.cons_append, List.cons.injEq] at e; exact absurd e.1 hq
    | hex => simp only [List.nil_append, List.cons_append, List.cons.injEq] at e; exact absurd e.1 hq
  | char h1 h2 h3 h4 _ ih =>
    cases h' with
    | nil => simp only [List.nil_append, List.cons_append, List.cons.injEq] at e; exact absurd e.1 h1
    | char g1 g2 g3 g4 g =>
      simp only [List.cons_append, List.cons.injEq] at e
      obtain ⟨rfl, e⟩ := e
      obtain ⟨rfl, rfl, rfl⟩ := ih g e
      exact ⟨rfl, rfl, rfl⟩
    | letter => simp only [List.cons_append, List.cons.injEq] at e; exact absurd e.1 h2
    | hex => simp only [List.cons_append, List.cons.injEq] at e; exact absurd e.1 h2
  | letter h1 _ ih =>
    cases h' with
    | nil => simp only [List.nil_append, List.cons_append, List.cons.injEq] at e; exact absurd e.1.symm hq
    | char g1 g2 g3 g4 g => simp only [List.cons_append, List.cons.injEq] at e; exact absurd e.1.symm g2
    | letter g1 g =>
      simp only [List.cons_append, List.cons.injEq, true_and] at e
      obtain ⟨rfl, e⟩ := e
      obtain ⟨rfl, rfl, rfl⟩ := ih g e
      exact ⟨rfl, congrArg (· :: _) (escapes_unique hm _ h1 _ g1 rfl), rfl⟩
    | hex _ _ _ g1 =>
      simp only [List.cons_append, List.cons.injEq, true_and] at e
      obtain ⟨rfl, e⟩ := e
      exact absurd h1 (hd _ _ (hexEscape_mem g1) _)
  | hex _ _ _ h1 h2 h3 _ ih =>
    cases h' with
    | nil => simp only [List.nil_append, List.cons_append, List.cons.injEq] at e; exact absurd e.1.symm hq
    | char g1 g2 g3 g4 g => simp only [List.cons_append, List.cons.injEq] at e; exact absurd e.1.symm g2
    | letter g1 g =>
      simp only [List.cons_append, List.cons.injEq, true_and] at e
      obtain ⟨rfl, e⟩ := e
      exact absurd g1 (hd _ _ (hexEscape_mem h1) _)
    | hex _ _ _ g1 g2 g3 g =>
      simp only [List.cons_append, List.cons.injEq, true_and, List.append_assoc] at e
      obtain ⟨rfl, e⟩ := e
      have := hl _ (hexEscape_mem h1) _ (hexEscape_mem g1) rfl
      obtain ⟨rfl, e'⟩ := List.append_inj e (by rw [h2, g2]; exact this)
      obtain ⟨rfl, rfl, rfl⟩ := ih g e'
      exact ⟨rfl, by rw [hexNumber_unique h3 g3], rfl⟩

theorem quotes_mem {q : Char} {v : List Nat} (h : Quotes q v) : q ∈ ['\'', '"'] := by
  rw [(quotes_iff _ _).1 h]; exact quote_mem _

theorem quote_ne {q : Char} (h : q ∈ ['\'', '"']) : q ≠ '\\' ∧ q ≠ 'b' ∧ q ≠ 'u' := by
  rcases quote_cases h with rfl | rfl <;> decide

/-- A literal can be read in one way, whatever follows. -/
theorem literal_unique {l l' s s' : Text} {v v' : StrValue} (h : IsLiteral l v) (h' : IsLiteral l' v')
    (e : l ++ s = l' ++ s') : v = v' ∧ l = l' ∧ s = s' := by
  have hb : "bytearray(b".toList = 'b' :: "ytearray(b".toList := rfl
  cases h with
  | str hq h =>
    replace hq := quotes_mem hq
    cases h' with
    | str hq' h' =>
      simp only [List.cons_append, List.append_assoc, List.cons.injEq, List.nil_append] at e
      obtain ⟨rfl, e⟩ := e
      obtain ⟨rfl, e1, rfl⟩ := body_unique hq h h' e
      exact ⟨by rw [List.map_injective_iff.2 Fin.val_injective e1], rfl, rfl⟩
    | bytearray hq' => rw [hb] at e; exact absurd (List.cons.inj e).1 (quote_ne hq).2.1
    | unicode hq' => exact absurd (List.cons.inj e).1 (quote_ne hq).2.2
  | bytearray hq h =>
    replace hq := quotes_mem hq
    cases h' with
    | str hq' => rw [hb] at e; exact absurd (List.cons.inj e).1.symm (quote_ne (quotes_mem hq')).2.1
    | bytearray hq' h' =>
      simp only [List.cons_append, List.append_assoc, List.append_cancel_left_eq, List.cons.injEq, List.nil_append] at e
      obtain ⟨rfl, e⟩ := e
      obtain ⟨rfl, e1, e2⟩ := body_unique hq h h' e
      exact ⟨by rw [List.map_injective_iff.2 Fin.val_injective e1], rfl, (List.cons.inj e2).2⟩
    | unicode hq' => rw [hb] at e; exact absurd (List.cons.inj e).1 (by decide)
  | unicode hq h =>
    replace hq := quotes_mem hq
    cases h' with
    | str hq' => exact absurd (List.cons.inj e).1.symm (quote_ne (quotes_mem hq')).2.2
    | bytearray hq' => rw [hb] at e; exact absurd (List.cons.inj e).1 (by decide)
    | unicode hq' h' =>
      simp only [List.cons_append, List.append_assoc, List.cons.injEq, List.nil_append, true_and] at e
      obtain ⟨rfl, e⟩ := e
      obtain ⟨rfl, e1, rfl⟩ := body_unique hq h h' e
      exact ⟨by rw [List.map_injective_iff.2 (fun a b h => Char.toNat_inj.1 h) e1], rfl, rfl⟩

theorem hexValue_ascii {c : Char} {n : Nat} (h : HexValue c n) : c.toNat < 128 := by
  obtain ⟨i, hi, rfl, -⟩ := h
  have : ∀ i : Fin 16, ("0123456789abcdef".toList.getD i.val ' ').toNat < 128 := by decide
  exact this ⟨i, hi⟩

theorem body_ascii {uni : Bool} {q : Char} (hq : q ∈ ['\'', '"']) {t : Text} {v : List Nat} (h : Body uni q t v) :
    ∀ c ∈ t, c.toNat < 128 := by
  induction h with
  | nil => simp
  | char _ _ _ h _ ih => simpa using ⟨by omega, ih⟩
  | letter h _ ih =>
    have : ∀ p ∈ escapes q, p.1.toNat < 128 := by rcases quote_cases hq with rfl | rfl <;> decide
    simpa using ⟨this _ h, ih⟩
  | @hex k len ds n t v _ _ _ h1 h2 h3 _ ih =>
    have hk : k.toNat < 128 := by
      have : ∀ p ∈ [('x', 2), ('u', 4), ('U', 8)], p.1.toNat < 128 := by decide
      exact this _ (hexEscape_mem h1)
    obtain ⟨vs, hv, -⟩ := h3
    have : ∀ c ∈ ds, c.toNat < 128 := by
      clear h2
      induction hv with
      | nil => simp
      | cons h _ ih => simpa using ⟨hexValue_ascii h, ih⟩
    intro c hc
    simp only [List.mem_cons, List.mem_append] at hc
    rcases hc with rfl | rfl | hc | hc
    · decide
    · exact hk
    · exact this c hc
    · exact ih c hc

theorem literal_ascii {t : Text} {v : StrValue} (h : IsLiteral t v) : Ascii t := by
  have hq : ∀ {q : Char}, q ∈ ['\'', '"'] → q.toNat < 128 := by
    intro q h
    rcases quote_cases h with rfl | rfl <;> decide
  cases h with
  | str h1 h2 =>
    replace h1 := quotes_mem h1
    have := body_ascii h1 h2
    intro c hc
    simp only [List.mem_cons, List.mem_append, List.not_mem_nil, or_false] at hc
    rcases hc with rfl | hc | rfl
    · exact hq h1
    · exact this _ hc
    · exact hq h1
  | bytearray h1 h2 =>
    replace h1 := quotes_mem h1
    have := body_ascii h1 h2
    have hb : ∀ c ∈ "bytearray(b".toList, c.toNat < 128 := by decide
    intro c hc
    simp only [List.mem_cons, List.mem_append, List.not_mem_nil, or_false] at hc
    rcases hc with hc | rfl | hc | rfl | rfl
    · exact hb c hc
    · exact hq h1
    · exact this _ hc
    · exact hq h1
    · decide
  | unicode h1 h2 =>
    replace h1 := quotes_mem h1
    have := body_ascii h1 h2
    intro c hc
    simp only [List.mem_cons, List.mem_append, List.not_mem_nil, or_false] at hc
    rcases hc with rfl | rfl | hc | rfl
    · decide
    · exact hq h1
    · exact this _ hc
    · exact hq h1

theorem hexNumber_code (len : Nat) : ∀ (ds : Text) (n : Nat), ds.length = len → HexNumber ds n → ds = hexCode len n := by
  induction len with
  | zero => intro ds n h _; rw [List.length_eq_zero_iff.1 h]; rfl
  | succ len ih =>
    rintro ds n h ⟨vs, hv, rfl⟩
    have hl := hv.length_eq
    obtain rfl | ⟨ds, c, rfl⟩ := List.eq_nil_or_concat' ds
    · cases h
    · obtain rfl | ⟨vs, d, rfl⟩ := List.eq_nil_or_concat' vs
      · simp at hl
      · simp only [List.length_append, List.length_singleton, Nat.add_right_cancel_iff] at hl h
        have hv' := List.forall₂_iff_get.1 hv
        have h1 : List.Forall₂ HexValue ds vs := by
          have := List.forall₂_take ds.length hv
          rwa [List.take_left, hl, List.take_left] at this
        have h2 : HexValue c d := by
          have := List.forall₂_drop ds.length hv
          rw [List.drop_left, hl, List.drop_left] at this
          cases this; assumption
        have e := ih ds _ h ⟨vs, h1, rfl⟩
        obtain ⟨i, hi, hc, rfl⟩ := h2
        have hd : ∀ m : Fin 16, hexDigit m.val = "0123456789abcdef".toList.getD m.val ' ' := by decide
        have hs : hornerValue 16 (vs ++ [d]) = 16 * hornerValue 16 vs + d := by
          unfold hornerValue
          rw [List.foldl_append]
          simp [Nat.mul_comm]
        unfold hexCode
        rw [hs, show (16 * hornerValue 16 vs + d) / 16 = hornerValue 16 vs by omega,
          show (16 * hornerValue 16 vs + d) % 16 = d by omega, ← e, hc, hd ⟨d, hi⟩]

/-- A value has one literal. -/
theorem body_text {uni : Bool} {q : Char} (hq : q ∈ ['\'', '"']) {t : Text} {v : List Nat} (h : Body uni q t v) :
    t = (v.map (escape q)).flatten := by
  induction h with
  | nil => rfl
  | @char c t v h1 h2 h3 h4 _ ih =>
    have e1 : c.toNat ≠ q.toNat := fun e => h1 (Char.toNat_inj.1 e)
    have e2 : c.toNat ≠ 92 := fun e => h2 (Char.toNat_inj.1 e)
    rw [List.map_cons, List.flatten_cons, ← ih]
    unfold escape
    rw [if_neg (by rintro (h | h) <;> contradiction), if_neg (by omega), if_neg (by omega), if_neg (by omega), if_neg (by omega),
      if_neg (by omega), if_neg (by omega), Char.ofNat_toNat]
    rfl
  | letter h _ ih =>
    rw [List.map_cons, List.flatten_cons, ← ih]
    have : ∀ p ∈ escapes q, escape q p.2 = ['\\', p.1] := by
      rcases quote_cases hq with rfl | rfl <;> decide
    rw [this _ h]
    rfl
  | @hex k len ds n t v h1 h2 _ h3 h4 h5 _ ih =>
    rw [List.map_cons, List.flatten_cons, ← ih]
    simp only [List.mem_cons, List.not_mem_nil, or_false] at h2
    have hn : ¬ (n = q.toNat ∨ n = 92) := by
      have : q.toNat = 39 ∨ q.toNat = 34 := by rcases quote_cases hq with rfl | rfl <;> decide
      omega
    have := hexNumber_code _ _ _ h4 h5
    subst this
    unfold escape
    rw [if_neg hn]
    unfold hexEscape at h3
    by_cases c1 : n < 0x100
    · rw [if_pos c1] at h3
      cases h3
      rw [if_neg (by omega), if_neg (by omega), if_neg (by omega), if_neg (by omega), if_neg (by omega), if_pos h1]
      rfl
    · rw [if_neg c1] at h3
      by_cases c2 : n < 0x10000
      · rw [if_pos c2] at h3
        cases h3
        rw [if_neg (by omega), if_pos (by omega)]
        rfl
      · rw [if_neg c2] at h3
        cases h3
        rw [if_pos (by omega)]
        rfl

/-- `repr` is the literal of a value. -/
theorem literal_iff (t : Text) (v : StrValue) : IsLiteral t v ↔ t = v.repr := by
  refine ⟨fun h => ?_, fun h => h ▸ literal_repr v⟩
  cases h with
  | str h1 h2 =>
    have e := body_text (quotes_mem h1) h2
    rw [(quotes_iff _ _).1 h1] at e ⊢
    unfold StrValue.repr quoted
    rw [e]
  | bytearray h1 h2 =>
    have e := body_text (quotes_mem h1) h2
    rw [(quotes_iff _ _).1 h1] at e ⊢
    unfold StrValue.repr quoted
    rw [e]
    simp only [List.append_assoc, List.cons_append, List.nil_append]
  | unicode h1 h2 =>
    have e := body_text (quotes_mem h1) h2
    rw [(quotes_iff _ _).1 h1] at e ⊢
    unfold StrValue.repr quoted
    rw [e]

end Bitforge
