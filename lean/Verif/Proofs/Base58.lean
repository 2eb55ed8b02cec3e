import Verif.Proofs.Digits
import Mathlib.Data.List.Forall2

/-! Helper lemmas on base 58 and its checksummed form. -/

namespace Bitforge
open Spec

theorem horner_eq (k : Nat) (ds : List Nat) (a : Nat) :
    ds.foldl (fun v d => v * k + d) a = a * k ^ ds.length + Nat.ofDigits k ds.reverse := by
  induction ds generalizing a with
  | nil => simp
  | cons x ds ih =>
    simp only [List.foldl_cons, ih, List.length_cons, List.reverse_cons, Nat.ofDigits_append,
      List.length_reverse, Nat.ofDigits_singleton, pow_succ]; ring

theorem hornerValue_eq (k : Nat) (ds : List Nat) : hornerValue k ds = Nat.ofDigits k ds.reverse := by
  simp [hornerValue, horner_eq]

theorem toLongLoop_some {α : Type} (base : Nat) (hb : 0 < base) (lookup : α → Option Nat) :
    ∀ (s : List α) (ds : List Nat), List.Forall₂ (fun c d => lookup c = some d) s ds → ∀ v p,
      toLongLoop base lookup s (v, p) =
        some (ds.foldl (fun v d => v * base + d) v, p + if v = 0 then leadingZeros ds else 0) := by
  intro s ds h
  induction h with
  | nil => intro v p; simp [toLongLoop, leadingZeros]
  | @cons c d s ds hc _ ih =>
    intro v p
    simp only [toLongLoop, hc, ih, List.foldl_cons]
    by_cases hv : v = 0
    · subst hv
      by_cases hd : d = 0
      · subst hd; simp [leadingZeros]; omega
      · simp [leadingZeros, hd]
    · have : ¬ (v * base + d = 0) := by
        have : 0 < v * base := Nat.mul_pos (by omega) hb
        omega
      simp only [this, hv, if_false]

theorem toLongLoop_none {α : Type} (base : Nat) (lookup : α → Option Nat) :
    ∀ (s : List α), (∃ c ∈ s, lookup c = none) → ∀ acc, toLongLoop base lookup s acc = none := by
  intro s
  induction s with
  | nil => intro h; simp at h
  | cons c s ih =>
    rintro ⟨c', hc', hn⟩ ⟨v, p⟩
    unfold toLongLoop
    cases hl : lookup c with
    | none => rfl
    | some d =>
      have : ∃ c ∈ s, lookup c = none := by
        rcases List.mem_cons.1 hc' with h | h
        · subst h; rw [hl] at hn; cases hn
        · exact ⟨c', h, hn⟩
      simp only
      exact ih this _

theorem toLong_some {α : Type} (base : Nat) (hb : 0 < base) (lookup : α → Option Nat)
    (s : List α) (ds : List Nat) (h : List.Forall₂ (fun c d => lookup c = some d) s ds) :
    toLong base lookup s = some (hornerValue base ds, leadingZeros ds) := by
  simp [toLong, toLongLoop_some base hb lookup s ds h, hornerValue]

theorem fromLong_eq {α : Type} (v p base : Nat) (hb : 1 < base) (cs : Nat → α) :
    fromLong v p base cs = List.replicate p (cs 0) ++ (Nat.digits base v).reverse.map cs := by
  simp [fromLong, fromLongLoop_eq base hb cs v v (Nat.le_refl v), List.reverse_replicate]

/-- A digit list is its leading zeros followed by the canonical digits of its value. -/
theorem digits_canonical (base : Nat) (hb : 1 < base) :
    ∀ ds : List Nat, (∀ d ∈ ds, d < base) →
      List.replicate (leadingZeros ds) 0 ++ (Nat.digits base (hornerValue base ds)).reverse = ds := by
  intro ds
  induction ds with
  | nil => intro _; simp [leadingZeros, hornerValue]
  | cons d ds ih =>
    intro h
    by_cases hd : d = 0
    · subst hd
      have := ih (fun d hd => h d (List.mem_cons_of_mem _ hd))
      have h1 : leadingZeros (0 :: ds) = leadingZeros ds + 1 := by simp [leadingZeros]
      have h2 : hornerValue base (0 :: ds) = hornerValue base ds := by simp [hornerValue]
      rw [h1, h2, List.replicate_succ, List.cons_append, this]
    · have h1 : leadingZeros (d :: ds) = 0 := by simp [leadingZeros, hd]
      rw [h1, hornerValue_eq]
      rw [Nat.digits_ofDigits base hb]
      · simp
      · intro l hl; exact h l (List.mem_reverse.1 hl)
      · intro _; simpa using hd

theorem leadingZeros_replicate_append (p : Nat) (ds : List Nat) (h : ∀ (hd : ds ≠ []), ds.head hd ≠ 0) :
    leadingZeros (List.replicate p 0 ++ ds) = p := by
  induction p with
  | zero =>
    cases ds with
    | nil => rfl
    | cons d ds => have := h (by simp); simp at this; simp [leadingZeros, this]
  | succ p ih =>
    simp only [leadingZeros] at ih ⊢
    rw [List.replicate_succ, List.cons_append, List.takeWhile_cons_of_pos (by rfl), List.length_cons, ih]

theorem hornerValue_replicate_append (base p : Nat) (ds : List Nat) :
    hornerValue base (List.replicate p 0 ++ ds) = hornerValue base ds := by
  simp only [hornerValue, List.foldl_append]
  congr 1
  induction p with
  | zero => rfl
  | succ p ih => simpa [List.replicate_succ] using ih

/-- The digit list built from a value and a prefix count. -/
theorem build_digits (base : Nat) (_hb : 1 < base) (v p : Nat) :
    leadingZeros (List.replicate p 0 ++ (Nat.digits base v).reverse) = p ∧
    hornerValue base (List.replicate p 0 ++ (Nat.digits base v).reverse) = v := by
  constructor
  · apply leadingZeros_replicate_append
    intro hd
    have hv : v ≠ 0 := by rintro rfl; simp at hd
    rw [List.head_reverse]
    exact Nat.getLast_digit_ne_zero base hv
  · rw [hornerValue_replicate_append, hornerValue_eq, List.reverse_reverse, Nat.ofDigits_digits]

theorem beValue_eq_horner (b : Bytes) : beValue b = hornerValue 256 (b.map Fin.val) := by
  rw [hornerValue_eq, ← List.map_reverse, ← leValue_eq_ofDigits]; rfl

theorem bytes_lookup (b : Bytes) :
    List.Forall₂ (fun (c : Byte) d => (fun b : Byte => some b.val) c = some d) b (b.map Fin.val) := by
  induction b with
  | nil => exact .nil
  | cons x b ih => exact .cons rfl ih

theorem toLong_bytes (b : Bytes) :
    toLong 256 (fun b : Byte => some b.val) b = some (beValue b, leadingZeros (b.map Fin.val)) := by
  rw [toLong_some 256 (by omega) _ b _ (bytes_lookup b), beValue_eq_horner]

/-- Bytes are recovered from value and leading zeros. -/
theorem bytes_canonical (b : Bytes) :
    List.replicate (leadingZeros (b.map Fin.val)) (0 : Byte) ++ (Nat.digits 256 (beValue b)).reverse.map byte
      = b := by
  have h := digits_canonical 256 (by omega) (b.map Fin.val) (by
    intro d hd; obtain ⟨x, _, rfl⟩ := List.mem_map.1 hd; exact x.isLt)
  have h2 := congrArg (List.map byte) h
  rw [← beValue_eq_horner, List.map_append, List.map_replicate, List.map_map] at h2
  have h3 : List.map (byte ∘ Fin.val) b = b := by
    conv_rhs => rw [← List.map_id b]
    apply List.map_congr_left; intro x _; exact byte_of_val x
  rw [h3] at h2
  exact h2

theorem alphabet_eq : base58Alphabet = alphabet58 := by decide

theorem alphabet_nodup : alphabet58.Nodup := by decide

theorem alphabet_length : alphabet58.length = 58 := by decide

theorem base58Lookup_iff (c : Char) (d : Nat) : base58Lookup c = some d ↔ alphabet58[d]? = some c := by
  unfold base58Lookup
  rw [alphabet_eq]
  constructor
  · intro h
    rw [List.idxOf?, List.findIdx?_eq_some_iff_getElem] at h
    obtain ⟨hl, h1, _⟩ := h
    rw [List.getElem?_eq_getElem hl]
    simpa using h1
  · intro h
    rw [List.idxOf?, List.findIdx?_eq_some_iff_getElem]
    obtain ⟨hl, h1⟩ := List.getElem?_eq_some_iff.1 h
    refine ⟨hl, by simpa using h1, ?_⟩
    intro j hj
    simp only [beq_iff_eq]
    intro hjc
    have := (List.Nodup.getElem_inj_iff alphabet_nodup (i := j) (j := d) (hi := by omega) (hj := hl)).1 (by rw [hjc, h1])
    omega

theorem base58Char_get {d : Nat} (h : d < 58) : alphabet58[d]? = some (base58Char d) := by
  unfold base58Char
  rw [alphabet_eq, List.getD_eq_getElem?_getD, List.getElem?_eq_getElem (by rw [alphabet_length]; exact h)]
  simp

theorem digits58_map {ds : List Nat} (h : ∀ d ∈ ds, d < 58) : Digits58 (ds.map base58Char) ds := by
  induction ds with
  | nil => exact .nil
  | cons d ds ih =>
    exact .cons (base58Char_get (h d (by simp))) (ih fun d hd => h d (by simp [hd]))

theorem digits58_lt {t : Text} {ds : List Nat} (h : Digits58 t ds) : ∀ d ∈ ds, d < 58 := by
  induction h with
  | nil => simp
  | cons hc _ ih =>
    intro d hd
    rcases List.mem_cons.1 hd with rfl | hd
    · obtain ⟨hl, _⟩ := List.getElem?_eq_some_iff.1 hc
      rwa [alphabet_length] at hl
    · exact ih d hd

theorem digits58_text {t : Text} {ds : List Nat} (h : Digits58 t ds) : t = ds.map base58Char := by
  induction h with
  | nil => rfl
  | @cons c d t ds hc _ ih =>
    have : d < 58 := by
      obtain ⟨hl, _⟩ := List.getElem?_eq_some_iff.1 hc
      rwa [alphabet_length] at hl
    rw [base58Char_get this] at hc
    simp only [Option.some.injEq] at hc
    simp [hc, ih]

theorem digits58_ascii {t : Text} {ds : List Nat} (h : Digits58 t ds) : isAscii t = true := by
  have key : ∀ c ∈ alphabet58, c.toNat < 128 := by decide
  induction h with
  | nil => rfl
  | @cons c d t ds hc _ ih =>
    have hm : c ∈ alphabet58 := List.mem_of_getElem? hc
    simp only [isAscii, List.all_cons, Bool.and_eq_true, decide_eq_true_eq] at ih ⊢
    exact ⟨key c hm, ih⟩

theorem digits58_exists {t : Text} (h : ∀ c ∈ t, c ∈ alphabet58) : ∃ ds, Digits58 t ds := by
  induction t with
  | nil => exact ⟨[], .nil⟩
  | cons c t ih =>
    obtain ⟨ds, hds⟩ := ih fun c hc => h c (by simp [hc])
    obtain ⟨d, hd⟩ := List.mem_iff_getElem?.1 (h c (by simp))
    exact ⟨d :: ds, .cons hd hds⟩

theorem a2b_of_digits {t : Text} {ds : List Nat} (h : Digits58 t ds) :
    a2bBase58 t = .ok (List.replicate (leadingZeros ds) 0 ++
      (Nat.digits 256 (hornerValue 58 ds)).reverse.map byte) := by
  have h' : List.Forall₂ (fun c d => base58Lookup c = some d) t ds :=
    h.imp fun c d => (base58Lookup_iff c d).2
  unfold a2bBase58
  rw [digits58_ascii h, toLong_some 58 (by omega) _ _ _ h']
  simp only [if_true]
  rw [fromLong_eq _ _ _ (by omega)]
  rfl

theorem a2b_not_digits {t : Text} (ha : isAscii t = true) (h : ∃ c ∈ t, c ∉ alphabet58) :
    a2bBase58 t = .error .encodingError := by
  obtain ⟨c, hc, hn⟩ := h
  have hl : base58Lookup c = none := by
    cases hx : base58Lookup c with
    | none => rfl
    | some d => exact absurd (List.mem_of_getElem? ((base58Lookup_iff c d).1 hx)) hn
  unfold a2bBase58
  rw [ha, toLong, toLongLoop_none 58 base58Lookup t ⟨c, hc, hl⟩]
  rfl

theorem b2a_eq (b : Bytes) : b2aBase58 b =
    (List.replicate (leadingZeros (b.map Fin.val)) 0 ++ (Nat.digits 58 (beValue b)).reverse).map base58Char := by
  unfold b2aBase58
  rw [toLong_bytes]
  simp only
  rw [fromLong_eq _ _ _ (by omega)]
  simp

theorem a2b_iff (t : Text) (b : Bytes) : a2bBase58 t = .ok b ↔ Base58 b t := by
  constructor
  · intro h
    by_cases ha : isAscii t = true
    · by_cases hall : ∀ c ∈ t, c ∈ alphabet58
      · obtain ⟨ds, hds⟩ := digits58_exists hall
        rw [a2b_of_digits hds] at h
        simp only [Except.ok.injEq] at h
        refine ⟨ds, hds, ?_⟩
        have hm : b.map Fin.val = List.replicate (leadingZeros ds) 0 ++
            (Nat.digits 256 (hornerValue 58 ds)).reverse := by
          rw [← h, List.map_append, List.map_replicate, List.map_map]
          congr 1
          conv_rhs => rw [← List.map_id (Nat.digits 256 (hornerValue 58 ds)).reverse]
          apply List.map_congr_left
          intro d hd
          have := Nat.digits_lt_base (b := 256) (by omega) (List.mem_reverse.1 hd)
          simp [Nat.mod_eq_of_lt this]
        have := build_digits 256 (by omega) (hornerValue 58 ds) (leadingZeros ds)
        rw [beValue_eq_horner, hm]
        exact ⟨this.1.symm, this.2.symm⟩
      · simp only [not_forall] at hall
        obtain ⟨c, hc, hn⟩ := hall
        rw [a2b_not_digits ha ⟨c, hc, hn⟩] at h
        cases h
    · simp [a2bBase58, ha] at h
  · rintro ⟨ds, hds, hz, hv⟩
    rw [a2b_of_digits hds, hz, hv, bytes_canonical]

theorem b2a_iff (t : Text) (b : Bytes) : b2aBase58 b = t ↔ Base58 b t := by
  have hb := build_digits 58 (by omega) (beValue b) (leadingZeros (b.map Fin.val))
  constructor
  · rintro rfl
    rw [b2a_eq]
    refine ⟨_, digits58_map ?_, hb.1, hb.2⟩
    intro d hd
    rcases List.mem_append.1 hd with h | h
    · have := List.eq_of_mem_replicate h; omega
    · exact Nat.digits_lt_base (by omega) (List.mem_reverse.1 h)
  · rintro ⟨ds, hds, hz, hv⟩
    rw [b2a_eq, ← hz, ← hv, digits_canonical 58 (by omega) ds (digits58_lt hds), digits58_text hds]

theorem b2a_ascii (b : Bytes) : isAscii (b2aBase58 b) = true := by
  obtain ⟨ds, h, _⟩ := (b2a_iff _ b).1 rfl
  exact digits58_ascii h

theorem a2b_b2a (b : Bytes) : a2bBase58 (b2aBase58 b) = .ok b :=
  (a2b_iff _ _).2 ((b2a_iff _ _).1 rfl)

theorem b2a_a2b {t : Text} {b : Bytes} (h : a2bBase58 t = .ok b) : b2aBase58 b = t :=
  (b2a_iff _ _).2 ((a2b_iff _ _).1 h)

theorem checksum_length (H : Hashes) (d : Bytes) : ((doubleSha256 H d).take 4).length = 4 := by
  simp [doubleSha256, H.sha256_length]

theorem dropLast4_append (d c : Bytes) (h : c.length = 4) : dropLast4 (d ++ c) = d := by
  simp [dropLast4, h]

theorem last4_append (d c : Bytes) (h : c.length = 4) : last4 (d ++ c) = c := by
  simp [last4, h]

theorem dropLast4_append_last4 (d : Bytes) : dropLast4 d ++ last4 d = d := by
  simp [dropLast4, last4]

theorem a2bHashed_iff (H : Hashes) (t : Text) (d : Bytes) :
    a2bHashedBase58 H t = .ok d ↔ b2aHashedBase58 H d = t := by
  unfold a2bHashedBase58 b2aHashedBase58
  constructor
  · intro h
    cases ha : a2bBase58 t with
    | error e => rw [ha] at h; simp at h
    | ok x =>
      rw [ha] at h
      simp only at h
      split at h
      · next hc =>
        simp only [Except.ok.injEq] at h
        subst h
        rw [hc, dropLast4_append_last4]
        exact b2a_a2b ha
      · cases h
  · rintro rfl
    rw [a2b_b2a]
    simp only
    rw [dropLast4_append _ _ (checksum_length H d), last4_append _ _ (checksum_length H d)]
    simp

theorem decodeBase58h_iff (H : Hashes) (t : Text) (d : Bytes) :
    decodeBase58h H t = .ok d ↔ encodeBase58h H d = t := by
  unfold decodeBase58h encodeBase58h
  rw [← a2bHashed_iff]
  cases a2bHashedBase58 H t with
  | ok x => simp
  | error e => cases e <;> simp

theorem decode_encodeBase58h (H : Hashes) (d : Bytes) : decodeBase58h H (encodeBase58h H d) = .ok d :=
  (decodeBase58h_iff H _ d).2 rfl

theorem decodeBase58h_error (H : Hashes) (t : Text) (e : Err) (h : decodeBase58h H t = .error e) :
    e = .invalidBase58h ∨ (e = .unicodeDecodeError ∧ isAscii t = false) := by
  unfold decodeBase58h a2bHashedBase58 a2bBase58 at h
  by_cases ha : isAscii t = true
  · rw [ha] at h
    simp only [if_true] at h
    cases hl : toLong 58 base58Lookup t with
    | none => rw [hl] at h; simp at h; exact .inl h.symm
    | some x =>
      rw [hl] at h
      obtain ⟨v, p⟩ := x
      simp only at h
      split at h
      · next hh => split at hh <;> simp_all
      · simp at h; exact .inl h.symm
      · next hne hh => split at hh <;> simp_all
  · simp only [Bool.not_eq_true] at ha
    rw [ha] at h
    simp at h
    exact .inr ⟨h.symm, ha⟩

end Bitforge
