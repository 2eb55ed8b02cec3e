import Verif.Uri
import Verif.Props.Unit
import Verif.Props.Keys
import Verif.Proofs.FloatText

/-! # Queries and dictionaries -/

namespace Bitforge
open Spec Url

/-! ## Splitting -/

theorem partitionAt_append {c : Char} {a : Text} (h : c ∉ a) (b : Text) : partitionAt c (a ++ c :: b) = (a, some b) := by
  induction a with
  | nil => simp [partitionAt]
  | cons x a ih =>
    simp only [List.mem_cons, not_or] at h
    rw [List.cons_append, partitionAt, if_neg (fun e => h.1 e.symm), ih h.2]

theorem partitionAt_none {c : Char} {a : Text} (h : c ∉ a) : partitionAt c a = (a, none) := by
  induction a with
  | nil => rfl
  | cons x a ih =>
    simp only [List.mem_cons, not_or] at h
    rw [partitionAt, if_neg (fun e => h.1 e.symm), ih h.2]

theorem partitionAt_spec (c : Char) (t : Text) :
    (c ∉ (partitionAt c t).1) ∧ t = (partitionAt c t).1 ++ (match (partitionAt c t).2 with | none => [] | some r => c :: r) := by
  induction t with
  | nil => simp [partitionAt]
  | cons x t ih =>
    unfold partitionAt
    split
    · next h => simp [h]
    · next h =>
      simp only [List.mem_cons, not_or, List.cons_append]
      exact ⟨⟨fun e => h e.symm, ih.1⟩, by rw [← ih.2]⟩

theorem splitAll_single {c : Char} {a : Text} (h : c ∉ a) : splitAll c a = [a] := by
  induction a with
  | nil => rfl
  | cons x a ih =>
    simp only [List.mem_cons, not_or] at h
    rw [splitAll, if_neg (fun e => h.1 e.symm), ih h.2]

theorem splitAll_append {c : Char} {a : Text} (h : c ∉ a) (b : Text) : splitAll c (a ++ c :: b) = a :: splitAll c b := by
  induction a with
  | nil => simp [splitAll]
  | cons x a ih =>
    simp only [List.mem_cons, not_or] at h
    rw [List.cons_append, splitAll, if_neg (fun e => h.1 e.symm), ih h.2]

/-! ## Quoting -/

/-- One character quoted. -/
def quoteChar (c : Char) : Text :=
  if alwaysSafe c then [c] else if c = ' ' then ['+'] else ['%', hexUpper (c.toNat / 16), hexUpper (c.toNat % 16)]

theorem quotePlus_cons (c : Char) (t : Text) : quotePlus (c :: t) = quoteChar c ++ quotePlus t := rfl

theorem hexUpper_spec : ∀ d : Fin 16, alwaysSafe (hexUpper d.val) = true ∧ hexDigit? (hexUpper d.val) = some d.val := by
  decide

/-- The characters of a quoted text. -/
def quotedChar (c : Char) : Bool := alwaysSafe c || c = '%' || c = '+'

theorem quoteChar_chars {c : Char} (h : c.toNat < 128) : ∀ x ∈ quoteChar c, quotedChar x = true := by
  intro x hx
  unfold quoteChar at hx
  split at hx
  · next hs => rw [List.mem_singleton.1 hx]; simp [quotedChar, hs]
  · split at hx
    · rw [List.mem_singleton.1 hx]; rfl
    · have h1 := (hexUpper_spec ⟨c.toNat / 16, by omega⟩).1
      have h2 := (hexUpper_spec ⟨c.toNat % 16, by omega⟩).1
      simp only [List.mem_cons, List.not_mem_nil, or_false] at hx
      rcases hx with rfl | rfl | rfl
      · rfl
      · simp [quotedChar, h1]
      · simp [quotedChar, h2]

/-- ASCII texts. -/
def AsciiText (t : Text) : Prop := ∀ c ∈ t, c.toNat < 128

theorem asciiText_ok {t : Text} (h : AsciiText t) : asciiText t = .ok t := by
  unfold asciiText
  rw [if_pos (by simp only [List.all_eq_true, decide_eq_true_eq]; exact h)]

theorem quotePlus_chars {t : Text} (h : AsciiText t) : ∀ x ∈ quotePlus t, quotedChar x = true := by
  induction t with
  | nil => intro x hx; simp [quotePlus] at hx
  | cons c t ih =>
    intro x hx
    rw [quotePlus_cons, List.mem_append] at hx
    rcases hx with hx | hx
    · exact quoteChar_chars (h c (by simp)) x hx
    · exact ih (fun c hc => h c (by simp [hc])) x hx

theorem quoted_not {t : Text} (h : ∀ x ∈ t, quotedChar x = true) {c : Char} (hc : quotedChar c = false) : c ∉ t := by
  intro hm; rw [h c hm] at hc; cases hc

theorem quotePlus_ne_nil {t : Text} (h : t ≠ []) : quotePlus t ≠ [] := by
  obtain ⟨c, r, rfl⟩ := List.exists_cons_of_ne_nil h
  rw [quotePlus_cons]
  unfold quoteChar
  split
  · simp
  · split <;> simp

theorem unquote_cons {c : Char} (h : c ≠ '%') (t : Text) : unquote (c :: t) = c :: unquote t := by
  match t with
  | [] => simp [unquote]
  | [a] => simp [unquote]
  | a :: b :: t => rw [unquote, if_neg h]

theorem unquote_escape {a b : Char} {x y : Nat} (ha : hexDigit? a = some x) (hb : hexDigit? b = some y) (t : Text) :
    unquote ('%' :: a :: b :: t) = Char.ofNat (16 * x + y) :: unquote t := by
  rw [unquote, if_pos rfl, ha, hb]

theorem safe_not {c : Char} (h : alwaysSafe c = true) : c ≠ '%' ∧ c ≠ '+' ∧ c ≠ ' ' := by
  refine ⟨?_, ?_, ?_⟩ <;> rintro rfl <;> exact absurd h (by decide)

theorem plusToSpace_append (a b : Text) : plusToSpace (a ++ b) = plusToSpace a ++ plusToSpace b := by
  simp [plusToSpace]

/-- Reading a quoted text gives the text. -/
theorem unquote_quotePlus {t : Text} (h : AsciiText t) : unquote (plusToSpace (quotePlus t)) = t := by
  induction t with
  | nil => rfl
  | cons c t ih =>
    have hc : c.toNat < 128 := h c (by simp)
    have ih := ih fun c hc => h c (by simp [hc])
    rw [quotePlus_cons, plusToSpace_append]
    unfold quoteChar
    split
    · next hs =>
      obtain ⟨h1, h2, -⟩ := safe_not hs
      rw [show plusToSpace [c] = [c] by simp [plusToSpace, h2], List.singleton_append, unquote_cons h1, ih]
    · split
      · next _ hsp =>
        rw [show plusToSpace ['+'] = [' '] from rfl, List.singleton_append, unquote_cons (by decide), ih, hsp]
      · have h1 := hexUpper_spec ⟨c.toNat / 16, by omega⟩
        have h2 := hexUpper_spec ⟨c.toNat % 16, by omega⟩
        simp only at h1 h2
        have e : plusToSpace ['%', hexUpper (c.toNat / 16), hexUpper (c.toNat % 16)]
            = ['%', hexUpper (c.toNat / 16), hexUpper (c.toNat % 16)] := by
          simp [plusToSpace, (safe_not h1.1).2.1, (safe_not h2.1).2.1]
        rw [e]
        simp only [List.cons_append, List.nil_append]
        rw [unquote_escape h1.2 h2.2, ih]
        congr 1
        rw [show 16 * (c.toNat / 16) + c.toNat % 16 = c.toNat by omega, Char.ofNat_toNat]

/-! ## Queries -/

/-- The text of a query. -/
def queryText : List (Text × Text) → Text
  | [] => []
  | (k, v) :: rest => quotePlus k ++ '=' :: quotePlus v ++ (if rest = [] then [] else '&' :: queryText rest)

/-- Items that survive a query: ASCII, with values. -/
def Plain (items : List (Text × Text)) : Prop := ∀ e ∈ items, AsciiText e.1 ∧ AsciiText e.2 ∧ e.2 ≠ []

theorem urlencode_ok {items : List (Text × Text)} (h : ∀ e ∈ items, AsciiText e.1 ∧ AsciiText e.2) :
    urlencode items = .ok (queryText items) := by
  induction items with
  | nil => rfl
  | cons e rest ih =>
    obtain ⟨k, v⟩ := e
    obtain ⟨h1, h2⟩ := h (k, v) (by simp)
    simp only [urlencode, asciiText_ok h1, asciiText_ok h2, ih fun e he => h e (by simp [he]), bind, Except.bind,
      pure, Except.pure, queryText]

theorem queryText_ne_nil {items : List (Text × Text)} (h : items ≠ []) : queryText items ≠ [] := by
  obtain ⟨e, r, rfl⟩ := List.exists_cons_of_ne_nil h
  simp [queryText]

theorem queryText_chars {items : List (Text × Text)} (h : Plain items) :
    ∀ c ∈ queryText items, quotedChar c = true ∨ c = '=' ∨ c = '&' := by
  induction items with
  | nil => intro c hc; simp [queryText] at hc
  | cons e rest ih =>
    obtain ⟨k, v⟩ := e
    obtain ⟨h1, h2, -⟩ := h (k, v) (by simp)
    have ih := ih fun e he => h e (by simp [he])
    intro c hc
    simp only [queryText, List.mem_append, List.mem_cons] at hc
    rcases hc with (hc | rfl | hc) | hc
    · exact .inl (quotePlus_chars h1 c hc)
    · exact .inr (.inl rfl)
    · exact .inl (quotePlus_chars h2 c hc)
    · split at hc
      · simp at hc
      · rcases List.mem_cons.1 hc with rfl | hc
        · exact .inr (.inr rfl)
        · exact ih c hc

theorem parsePair_ok {k v : Text} (hk : AsciiText k) (hv : AsciiText v) (hne : v ≠ []) :
    parsePair (quotePlus k ++ '=' :: quotePlus v) = some (k, v) := by
  unfold parsePair
  rw [partitionAt_append (quoted_not (quotePlus_chars hk) (by decide))]
  split
  · next h => cases h
  · next h => injection h with _ h; injection h with h; exact absurd h (quotePlus_ne_nil hne)
  · next h =>
    injection h with h1 h2
    injection h2 with h2
    rw [← h1, ← h2, unquote_quotePlus hk, unquote_quotePlus hv]

/-- `parse_qsl` undoes `urlencode`. -/
theorem parseQsl_queryText {items : List (Text × Text)} (h : Plain items) : parseQsl (queryText items) = items := by
  induction items with
  | nil => rfl
  | cons e rest ih =>
    obtain ⟨k, v⟩ := e
    obtain ⟨h1, h2, h3⟩ := h (k, v) (by simp)
    have ih := ih fun e he => h e (by simp [he])
    have hamp : '&' ∉ quotePlus k ++ '=' :: quotePlus v := by
      simp only [List.mem_append, List.mem_cons, not_or]
      exact ⟨quoted_not (quotePlus_chars h1) (by decide), by decide, quoted_not (quotePlus_chars h2) (by decide)⟩
    have hsemi : ';' ∉ quotePlus k ++ '=' :: quotePlus v := by
      simp only [List.mem_append, List.mem_cons, not_or]
      exact ⟨quoted_not (quotePlus_chars h1) (by decide), by decide, quoted_not (quotePlus_chars h2) (by decide)⟩
    unfold queryText
    by_cases hr : rest = []
    · rw [if_pos hr, List.append_nil, hr]
      unfold parseQsl
      rw [splitAll_single hamp]
      simp only [List.flatMap_cons, List.flatMap_nil, List.append_nil]
      rw [splitAll_single hsemi]
      simp only [List.filterMap_cons, parsePair_ok h1 h2 h3, List.filterMap_nil]
    · rw [if_neg hr]
      unfold parseQsl at ih ⊢
      rw [splitAll_append hamp]
      simp only [List.flatMap_cons]
      rw [splitAll_single hsemi]
      simp only [List.cons_append, List.nil_append, List.filterMap_cons, parsePair_ok h1 h2 h3]
      rw [ih]

/-! ## Addresses in URIs -/

theorem address_chars {H : Hashes} {b : Bytes} {t : Text} (h : Base58Check H b t) : ∀ c ∈ t, c.isAlphanum = true := by
  obtain ⟨ds, hd, -⟩ := h
  have : ∀ c ∈ alphabet58, c.isAlphanum = true := by decide
  intro c hc
  rw [digits58_text hd, List.mem_map] at hc
  obtain ⟨d, hdm, rfl⟩ := hc
  exact this _ (List.mem_of_getElem? (base58Char_get (digits58_lt hd d hdm)))

theorem alnum_not {c : Char} (h : c.isAlphanum = true) : c ≠ ':' ∧ c ≠ '/' ∧ c ≠ '#' ∧ c ≠ '?' := by
  refine ⟨?_, ?_, ?_, ?_⟩ <;> rintro rfl <;> exact absurd h (by decide)

/-- A scheme of letters, digits and `+-.` that has no parameters of its own. -/
structure PlainScheme (s : Text) : Prop where
  ne : s ≠ []
  chars : s.all schemeChar = true
  params : String.ofList (s.map Char.toLower) ∉ usesParams

theorem PlainScheme.bitcoin : PlainScheme "bitcoin".toList := ⟨by decide, by decide, by decide⟩

/-- The parts of a URI with a path and no network location. -/
theorem urlparse_scheme {s a q : Text} (hs : PlainScheme s) (ha : ∀ c ∈ a, c.isAlphanum = true) (hne : a ≠ [])
    (hq : '#' ∉ q) (hd : q ≠ [] ∨ ∃ c ∈ a, c.isDigit = false) :
    urlparse (s ++ ':' :: (a ++ (if q ≠ [] then '?' :: q else []))) = .ok ⟨s.map Char.toLower, [], a, q⟩ := by
  generalize ht : (if q ≠ [] then '?' :: q else []) = tail
  have hnot : ∀ {c : Char}, c.isAlphanum = false → c ∉ a := fun hc hm => by rw [ha _ hm] at hc; cases hc
  have hscheme : splitScheme (s ++ ':' :: (a ++ tail)) = (s.map Char.toLower, a ++ tail) := by
    have hp : partitionAt ':' (s ++ ':' :: (a ++ tail)) = (s, some (a ++ tail)) := by
      refine partitionAt_append ?_ _
      intro hm
      have := List.all_eq_true.1 hs.chars _ hm
      exact absurd this (by decide)
    unfold splitScheme
    rw [hp]
    simp only
    rw [if_neg hs.ne, if_neg (by rintro rfl; exact hs.params (by decide)), if_pos]
    refine ⟨hs.chars, .inr ?_⟩
    rw [List.any_eq_true]
    rcases hd with hd | ⟨c, hc, hcd⟩
    · rw [if_pos hd] at ht
      exact ⟨'?', by rw [← ht]; simp, by decide⟩
    · exact ⟨c, by simp [hc], by rw [hcd]; rfl⟩
  have hslash : (a ++ tail).take 2 ≠ "//".toList := by
    obtain ⟨c, r, rfl⟩ := List.exists_cons_of_ne_nil hne
    intro h
    have h1 : c = '/' := by
      have := congrArg List.head? h
      simpa using this
    exact (alnum_not (ha c (by simp))).2.1 h1
  have hhash : '#' ∉ a ++ tail := by
    rw [List.mem_append, not_or]
    refine ⟨hnot (by decide), ?_⟩
    rw [← ht]
    split
    · rw [List.mem_cons, not_or]; exact ⟨by decide, hq⟩
    · simp
  unfold urlparse
  rw [hscheme]
  simp only [if_neg hslash]
  rw [partitionAt_none hhash, if_neg (by simp), if_neg hs.params]
  simp only
  by_cases hqe : q = []
  · have : tail = [] := by rw [← ht]; simp [hqe]
    rw [this, List.append_nil, partitionAt_none (hnot (by decide)), hqe]
    rfl
  · rw [if_pos hqe] at ht
    rw [← ht, partitionAt_append (hnot (by decide))]
    rfl

/-- The parts of a `bitcoin:` URI. -/
theorem urlparse_bitcoin {a q : Text} (ha : ∀ c ∈ a, c.isAlphanum = true) (hne : a ≠ []) (hq : '#' ∉ q)
    (hd : q ≠ [] ∨ ∃ c ∈ a, c.isDigit = false) :
    urlparse ("bitcoin:".toList ++ a ++ (if q ≠ [] then '?' :: q else [])) = .ok ⟨"bitcoin".toList, [], a, q⟩ := by
  have := urlparse_scheme PlainScheme.bitcoin ha hne hq hd
  rw [show "bitcoin:".toList ++ a ++ (if q ≠ [] then '?' :: q else []) =
    "bitcoin".toList ++ ':' :: (a ++ (if q ≠ [] then '?' :: q else [])) by simp]
  exact this

/-- The parts of a text of letters and digits. -/
theorem urlparse_bare {a : Text} (ha : ∀ c ∈ a, c.isAlphanum = true) (hne : a ≠ []) :
    urlparse a = .ok ⟨[], [], a, []⟩ := by
  have hnot : ∀ {c : Char}, c.isAlphanum = false → c ∉ a := fun hc hm => by rw [ha _ hm] at hc; cases hc
  have h1 : splitScheme a = ([], a) := by
    unfold splitScheme
    rw [partitionAt_none (hnot (by decide))]
  have hslash : a.take 2 ≠ "//".toList := by
    obtain ⟨c, r, rfl⟩ := List.exists_cons_of_ne_nil hne
    intro h
    have h1 : c = '/' := by
      have := congrArg List.head? h
      simpa using this
    exact (alnum_not (ha c (by simp))).2.1 h1
  have hall : ∀ {c : Char} (t : Text), (∀ x ∈ t, x.isAlphanum = true) → c.isAlphanum = false →
      t.takeWhile (· ≠ c) = t := by
    intro c t ht hc
    induction t with
    | nil => rfl
    | cons x t ih =>
      have hx : x ≠ c := by
        rintro rfl
        rw [ht x (by simp)] at hc; cases hc
      rw [List.takeWhile_cons, if_pos (by simpa using hx), ih fun y hy => ht y (by simp [hy])]
  have h2 : cutParams a = a := by
    unfold cutParams
    rw [hall a.reverse (by simpa using ha) (by decide), List.reverse_reverse]
    simp only
    rw [hall a ha (by decide)]
    simp
  unfold urlparse
  rw [h1]
  simp only [if_neg hslash]
  rw [partitionAt_none (hnot (by decide)), if_neg (by simp), if_pos (by decide)]
  simp only
  rw [partitionAt_none (hnot (by decide)), h2]
  rfl

/-! The path and the network location are pieces of the text. -/

theorem partitionAt_prefix (c : Char) (t : Text) : (partitionAt c t).1 <+: t :=
  ⟨_, (partitionAt_spec c t).2.symm⟩

theorem partitionAt_suffix {c : Char} {t pre rest : Text} (h : partitionAt c t = (pre, some rest)) : rest <:+ t := by
  have := (partitionAt_spec c t).2
  rw [h] at this
  exact ⟨pre ++ [c], by rw [this]; simp⟩

theorem splitScheme_suffix (t : Text) : (splitScheme t).2 <:+ t := by
  unfold splitScheme
  cases hp : partitionAt ':' t with
  | mk pre o =>
    cases o with
    | none => exact List.suffix_refl _
    | some rest =>
      simp only
      have := partitionAt_suffix hp
      split_ifs
      · exact List.suffix_refl _
      · exact this
      · exact this
      · exact List.suffix_refl _

theorem cutParams_prefix (t : Text) : cutParams t <+: t := by
  unfold cutParams
  simp only
  have h1 : (t.reverse.takeWhile (· ≠ '/')).reverse <:+ t := by
    have := List.takeWhile_prefix (l := t.reverse) (p := fun c => decide (c ≠ '/'))
    rw [← List.reverse_suffix, List.reverse_reverse] at this
    exact this
  obtain ⟨pre, h1⟩ := h1
  generalize (t.reverse.takeWhile (· ≠ '/')).reverse = last at h1
  subst h1
  rw [List.length_append, Nat.add_sub_cancel, List.take_left]
  exact (List.prefix_append_right_inj pre).2 (List.takeWhile_prefix _)

theorem urlparse_infix {t : Text} {p : Parsed} (h : urlparse t = .ok p) : p.path <:+: t ∧ p.netloc <:+: t := by
  unfold urlparse at h
  have hs := splitScheme_suffix t
  generalize splitScheme t = s at h hs
  obtain ⟨scheme, rest⟩ := s
  simp only at h hs
  have hn : ∀ nl : Text × Text, nl = (if rest.take 2 = "//".toList then splitNetloc rest else ([], rest)) →
      nl.1 <:+: rest ∧ nl.2 <:+ rest := by
    rintro nl rfl
    split
    · unfold splitNetloc
      exact ⟨(List.takeWhile_prefix _).isInfix.trans (List.drop_suffix _ _).isInfix,
        (List.dropWhile_suffix _).trans (List.drop_suffix _ _)⟩
    · exact ⟨List.nil_infix, List.suffix_refl _⟩
  generalize hnl : (if rest.take 2 = "//".toList then splitNetloc rest else ([], rest)) = nl at h
  obtain ⟨h1, h2⟩ := hn nl hnl.symm
  split at h
  · cases h
  injection h with h
  rw [← h]
  have h3 : (partitionAt '?' (partitionAt '#' nl.2).1).1 <:+: rest :=
    ((partitionAt_prefix _ _).trans (partitionAt_prefix _ _)).isInfix.trans h2.isInfix
  refine ⟨?_, h1.trans hs.isInfix⟩
  simp only
  split
  · exact (cutParams_prefix _).isInfix.trans (h3.trans hs.isInfix)
  · exact h3.trans hs.isInfix

/-! ## Dictionaries -/

namespace Dict

/-- No key occurs twice. -/
def Unique {α : Type} (d : Dict α) : Prop := (d.map Prod.fst).Nodup

theorem get?_cons {α : Type} (k' : Text) (v : α) (d : Dict α) (k : Text) :
    get? ((k', v) :: d) k = if k' = k then some v else get? d k := by
  rw [get?]

theorem get?_filter {α : Type} (d : Dict α) (p : Text → Bool) (k : Text) :
    get? (d.filter fun e => p e.1) k = if p k then get? d k else none := by
  induction d with
  | nil => simp [get?]
  | cons e d ih =>
    obtain ⟨k', v⟩ := e
    rw [List.filter_cons]
    by_cases hp : p k' = true
    · rw [if_pos hp, get?_cons, get?_cons, ih]
      by_cases hk : k' = k
      · subst hk; simp [hp]
      · simp [hk]
    · rw [if_neg hp, ih, get?_cons]
      by_cases hk : k' = k
      · subst hk; simp [hp]
      · simp [hk]

theorem get?_map {α β : Type} (d : Dict α) (f : α → β) (k : Text) :
    get? (d.map fun e => (e.1, f e.2)) k = (get? d k).map f := by
  induction d with
  | nil => rfl
  | cons e d ih =>
    obtain ⟨k', v⟩ := e
    rw [List.map_cons, get?_cons, get?_cons, ih]
    split <;> rfl

theorem get?_set {α : Type} (d : Dict α) (k : Text) (v : α) (k' : Text) :
    get? (set d k v) k' = if k = k' then some v else get? d k' := by
  unfold set
  rw [get?_cons]
  split
  · rfl
  · next h =>
    have := get?_filter d (fun x => decide (x ≠ k)) k'
    rw [this]
    simp [Ne.symm h]

theorem get?_none {α : Type} {d : Dict α} {k : Text} : get? d k = none ↔ k ∉ d.map Prod.fst := by
  induction d with
  | nil => simp [get?]
  | cons e d ih =>
    obtain ⟨k', v⟩ := e
    rw [get?_cons]
    by_cases h : k' = k
    · simp [h]
    · simp only [if_neg h, ih, List.map_cons, List.mem_cons, not_or]
      exact ⟨fun hh => ⟨fun e => h e.symm, hh⟩, fun hh => hh.2⟩

theorem get?_mem {α : Type} {d : Dict α} {k : Text} {v : α} (h : get? d k = some v) : (k, v) ∈ d := by
  induction d with
  | nil => cases h
  | cons e d ih =>
    obtain ⟨k', v'⟩ := e
    rw [get?_cons] at h
    split at h
    · next hk => injection h with h; subst hk; subst h; simp
    · simp [ih h]

theorem get?_of_mem {α : Type} {d : Dict α} (hu : Unique d) {k : Text} {v : α} (h : (k, v) ∈ d) : get? d k = some v := by
  induction d with
  | nil => cases h
  | cons e d ih =>
    obtain ⟨k', v'⟩ := e
    unfold Unique at hu
    rw [List.map_cons, List.nodup_cons] at hu
    rw [get?_cons]
    rcases List.mem_cons.1 h with h | h
    · injection h with h1 h2; rw [if_pos h1.symm, h2]
    · rw [if_neg, ih hu.2 h]
      rintro rfl
      exact hu.1 (List.mem_map.2 ⟨_, h, rfl⟩)

theorem unique_set {α : Type} {d : Dict α} (h : Unique d) (k : Text) (v : α) : Unique (set d k v) := by
  unfold Unique set at *
  rw [List.map_cons, List.nodup_cons]
  refine ⟨?_, (List.filter_sublist.map _).nodup h⟩
  intro hm
  obtain ⟨e, he, hek⟩ := List.mem_map.1 hm
  have := (List.mem_filter.1 he).2
  simp only [ne_eq, decide_not, Bool.not_eq_eq_eq_not, Bool.not_true, decide_eq_false_iff_not] at this
  exact this hek

theorem get?_ofItems {α : Type} (items : List (Text × α)) (hu : Unique items) (k : Text) :
    get? (ofItems items) k = get? items k := by
  have key : ∀ (items : List (Text × α)) (d : Dict α), Unique items →
      get? (items.foldl (fun d e => set d e.1 e.2) d) k = (get? items k).or (get? d k) := by
    intro items
    induction items with
    | nil => intro d _; simp [get?]
    | cons e items ih =>
      intro d hu
      obtain ⟨k', v⟩ := e
      unfold Unique at hu
      rw [List.map_cons, List.nodup_cons] at hu
      rw [List.foldl_cons, ih _ hu.2, get?_cons]
      simp only [get?_set]
      by_cases hk : k' = k
      · subst hk
        rw [get?_none.2 hu.1]
        simp
      · simp [hk]
  unfold ofItems
  rw [key items [] hu]
  cases get? items k <;> rfl

end Dict

theorem textLe_refl (t : Text) : textLe t t = true := by
  induction t with
  | nil => rfl
  | cons c t ih => simp [textLe, ih]

theorem get?_insertByKey {α : Type} (e : Text × α) (d : Dict α) (k : Text) :
    Dict.get? (insertByKey e d) k = Dict.get? (e :: d) k := by
  induction d with
  | nil => rfl
  | cons x d ih =>
    obtain ⟨ke, ve⟩ := e
    obtain ⟨kx, vx⟩ := x
    unfold insertByKey
    split
    · rfl
    · next h =>
      have hne : ke ≠ kx := by rintro rfl; exact h (textLe_refl _)
      rw [Dict.get?_cons, ih, Dict.get?_cons, Dict.get?_cons, Dict.get?_cons]
      by_cases h1 : kx = k
      · subst h1; simp [hne]
      · simp [h1]

theorem get?_sortByKey {α : Type} (d : Dict α) (k : Text) : Dict.get? (sortByKey d) k = Dict.get? d k := by
  induction d with
  | nil => rfl
  | cons e d ih =>
    obtain ⟨k', v⟩ := e
    rw [sortByKey, get?_insertByKey, Dict.get?_cons, Dict.get?_cons, ih]

theorem insertByKey_perm {α : Type} (e : Text × α) (d : Dict α) : (insertByKey e d).Perm (e :: d) := by
  induction d with
  | nil => exact List.Perm.refl _
  | cons x d ih =>
    unfold insertByKey
    split
    · exact List.Perm.refl _
    · exact (ih.cons x).trans (List.Perm.swap e x d)

theorem sortByKey_perm {α : Type} (d : Dict α) : (sortByKey d).Perm d := by
  induction d with
  | nil => exact List.Perm.refl _
  | cons e d ih => exact (insertByKey_perm e _).trans (ih.cons e)

theorem sortByKey_unique {α : Type} {d : Dict α} (h : Dict.Unique d) : Dict.Unique (sortByKey d) :=
  ((sortByKey_perm d).map Prod.fst).nodup_iff.2 h

end Bitforge
