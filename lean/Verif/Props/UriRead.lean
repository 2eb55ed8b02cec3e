import Verif.Spec.UriRead
import Verif.Props.Uri
import Verif.Props.FloatRead

/-! # C109: what the text of a URI means -/

namespace Bitforge
open Spec Url BtcUnit

/-! ## The parts of the text -/

/-- Two splits at a first occurrence agree. -/
theorem split_unique {c : Char} {a b x y : Text} (ha : c ∉ a) (hb : c ∉ b) (h : a ++ c :: x = b ++ c :: y) : a = b ∧ x = y := by
  have h1 := partitionAt_append ha x
  rw [h, partitionAt_append hb y] at h1
  injection h1 with h1 h2
  injection h2 with h2
  exact ⟨h1.symm, h2.symm⟩

theorem before_iff (c : Char) (t p : Text) : (partitionAt c t).1 = p ↔ Before c t p := by
  constructor
  · rintro rfl
    obtain ⟨h1, h2⟩ := partitionAt_spec c t
    refine ⟨h1, ?_⟩
    cases hp : (partitionAt c t).2 with
    | none => rw [hp] at h2; left; simpa using h2
    | some r => rw [hp] at h2; exact .inr ⟨r, h2⟩
  · rintro ⟨h, rfl | ⟨r, rfl⟩⟩
    · rw [partitionAt_none h]
    · rw [partitionAt_append h]

theorem digit_iff (c : Char) : c.isDigit = true ↔ 48 ≤ c.toNat ∧ c.toNat ≤ 57 := by
  simp only [Char.isDigit, Bool.and_eq_true, decide_eq_true_eq]
  exact Iff.rfl

theorem alphanum_iff (c : Char) : c.isAlphanum = true ↔
    (48 ≤ c.toNat ∧ c.toNat ≤ 57) ∨ (65 ≤ c.toNat ∧ c.toNat ≤ 90) ∨ (97 ≤ c.toNat ∧ c.toNat ≤ 122) := by
  simp only [Char.isAlphanum, Char.isAlpha, Char.isUpper, Char.isLower, Bool.or_eq_true, digit_iff, Bool.and_eq_true,
    decide_eq_true_eq]
  have h1 : (c.val ≥ 'A'.val ∧ c.val ≤ 'Z'.val) ↔ (65 ≤ c.toNat ∧ c.toNat ≤ 90) := Iff.rfl
  have h2 : (c.val ≥ 'a'.val ∧ c.val ≤ 'z'.val) ↔ (97 ≤ c.toNat ∧ c.toNat ≤ 122) := Iff.rfl
  rw [h1, h2]
  omega

theorem schemeChar_iff (c : Char) : schemeChar c = true ↔ SchemeChar c := by
  unfold schemeChar SchemeChar
  simp only [Bool.or_eq_true, alphanum_iff, decide_eq_true_eq, or_assoc]

theorem schemeName_iff (s rest : Text) (h0 : s ≠ []) (h1 : ':' ∉ s) : SchemeName s rest ↔
    s = "http".toList ∨ (s.all schemeChar ∧ (rest = [] ∨ rest.any fun c => !c.isDigit)) := by
  unfold SchemeName
  have h2 : (s.all schemeChar = true) ↔ ∀ c ∈ s, SchemeChar c := by
    rw [List.all_eq_true]
    exact forall₂_congr fun c _ => schemeChar_iff c
  have h3 : (rest.any (fun c => !c.isDigit) = true) ↔ ∃ c ∈ rest, c.toNat < 48 ∨ 57 < c.toNat := by
    rw [List.any_eq_true]
    refine exists_congr fun c => and_congr_right fun _ => ?_
    have := digit_iff c
    cases hd : c.isDigit
    · rw [hd] at this
      have : ¬ (48 ≤ c.toNat ∧ c.toNat ≤ 57) := fun h => absurd (this.2 h) (by decide)
      simp only [Bool.not_false, true_iff]
      omega
    · have := this.1 hd
      simp only [Bool.not_true, Bool.false_eq_true, false_iff]
      omega
  rw [h2, h3]
  exact ⟨fun h => h.2.2, fun h => ⟨h0, h1, h⟩⟩

theorem scheme_iff (t s r : Text) : splitScheme t = (s, r) ↔ Scheme t s r := by
  have hsome : ∀ {s rest}, t = s ++ ':' :: rest → SchemeName s rest → splitScheme t = (s.map Char.toLower, rest) := by
    intro s rest ht hs
    unfold splitScheme
    rw [ht, partitionAt_append hs.2.1]
    simp only
    rw [if_neg hs.1]
    rcases (schemeName_iff s rest hs.1 hs.2.1).1 hs with h | h
    · rw [if_pos h, h]
      rfl
    · by_cases hh : s = "http".toList
      · rw [if_pos hh, hh]
        rfl
      · rw [if_neg hh, if_pos h]
  have hnone : (∀ s rest, t = s ++ ':' :: rest → ¬ SchemeName s rest) → splitScheme t = ([], t) := by
    intro h
    unfold splitScheme
    have hsp := partitionAt_spec ':' t
    cases hp : partitionAt ':' t with
    | mk pre o =>
      rw [hp] at hsp
      cases o with
      | none => rfl
      | some rest =>
        simp only at hsp ⊢
        by_cases h0 : pre = []
        · rw [if_pos h0]
        · rw [if_neg h0]
          have hn := h pre rest hsp.2
          rw [schemeName_iff pre rest h0 hsp.1, not_or] at hn
          rw [if_neg hn.1, if_neg hn.2]
  constructor
  · intro h
    by_cases hx : ∃ s rest, t = s ++ ':' :: rest ∧ SchemeName s rest
    · obtain ⟨s', rest, h1, h2⟩ := hx
      rw [hsome h1 h2] at h
      injection h with h3 h4
      rw [← h3, ← h4]
      exact .some h1 h2
    · have hx' : ∀ s rest, t = s ++ ':' :: rest → ¬ SchemeName s rest := fun s rest h1 h2 => hx ⟨s, rest, h1, h2⟩
      rw [hnone hx'] at h
      injection h with h3 h4
      rw [← h3, ← h4]
      exact .none hx'
  · intro h
    cases h with
    | some h1 h2 => exact hsome h1 h2
    | none h => exact hnone h

/-- The authority and the rest, as `urlsplit` computes them. -/
def authorityOf (t : Text) : Text × Text := if t.take 2 = "//".toList then splitNetloc t else ([], t)

theorem takeWhile_split {p : Char → Bool} {a r : Text} (ha : ∀ c ∈ a, p c = true) (hr : r = [] ∨ ∃ c x, r = c :: x ∧ p c = false) :
    (a ++ r).takeWhile p = a ∧ (a ++ r).dropWhile p = r := by
  rw [List.takeWhile_append_of_pos ha, List.dropWhile_append_of_pos ha]
  rcases hr with rfl | ⟨c, x, rfl, hc⟩
  · simp
  · rw [List.takeWhile_cons, List.dropWhile_cons, hc]
    simp

theorem dropWhile_head {p : Char → Bool} {l r : Text} {c : Char} (h : l.dropWhile p = c :: r) : p c = false := by
  have := List.head_dropWhile_not (p := p) (l := l) (by rw [h]; simp)
  simpa only [h, List.head_cons] using this

theorem authority_iff (t a r : Text) : authorityOf t = (a, r) ↔ Authority t a r := by
  have hin : ∀ c : Char, (c ≠ '/' && c ≠ '?' && c ≠ '#') = true ↔ c ∉ enders := by
    intro c
    simp only [enders, Bool.and_eq_true, decide_eq_true_eq, List.mem_cons, List.not_mem_nil, or_false, not_or, and_assoc]
  have htake : t.take 2 = "//".toList ↔ ∃ x, t = '/' :: '/' :: x := by
    constructor
    · intro h
      refine ⟨t.drop 2, ?_⟩
      conv_lhs => rw [← List.take_append_drop 2 t, h]
      rfl
    · rintro ⟨x, rfl⟩; rfl
  constructor
  · intro h
    unfold authorityOf at h
    split at h
    · next hs =>
      obtain ⟨x, rfl⟩ := htake.1 hs
      unfold splitNetloc at h
      simp only [List.drop_succ_cons, List.drop_zero] at h
      injection h with h1 h2
      refine .some ?_ ?_ ?_
      · rw [← h1, ← h2, List.takeWhile_append_dropWhile]
      · intro c hc
        rw [← h1] at hc
        exact (hin c).1 (List.mem_takeWhile_imp (p := fun c : Char => c ≠ '/' && c ≠ '?' && c ≠ '#') hc)
      · cases r with
        | nil => exact .inl rfl
        | cons c r' =>
          refine .inr ⟨c, r', rfl, ?_⟩
          have := List.head_dropWhile_not (p := fun c : Char => c ≠ '/' && c ≠ '?' && c ≠ '#') (l := x) (by rw [h2]; simp)
          simp only [h2, List.head_cons] at this
          by_contra hc
          rw [(hin c).2 hc] at this
          cases this
    · next hs =>
      injection h with h1 h2
      rw [← h1, ← h2]
      exact .none fun r hr => hs (htake.2 ⟨r, hr⟩)
  · intro h
    unfold authorityOf
    cases h with
    | some h1 h2 h3 =>
      rw [if_pos (htake.2 ⟨_, h1⟩), h1]
      unfold splitNetloc
      simp only [List.drop_succ_cons, List.drop_zero]
      obtain ⟨h4, h5⟩ := takeWhile_split (p := fun c : Char => c ≠ '/' && c ≠ '?' && c ≠ '#') (a := a) (r := r)
        (fun c hc => (hin c).2 (h2 c hc)) (by
          rcases h3 with h3 | ⟨c, x, h3, h4⟩
          · exact .inl h3
          · refine .inr ⟨c, x, h3, ?_⟩
            rw [← Bool.not_eq_true]
            exact fun h => (hin c).1 h h4)
      rw [h4, h5]
    | none h => rw [if_neg (fun hs => by obtain ⟨x, hx⟩ := htake.1 hs; exact h x hx)]

theorem cutParams_iff (path p : Text) : cutParams path = p ↔ WithoutParams path p := by
  have hbefore : ∀ l : Text, Before ';' l (l.takeWhile (· ≠ ';')) := by
    intro l
    refine ⟨fun h => by simpa using List.mem_takeWhile_imp h, ?_⟩
    cases hd : l.dropWhile (· ≠ ';') with
    | nil => left; conv_lhs => rw [← List.takeWhile_append_dropWhile (p := (· ≠ ';')) (l := l), hd, List.append_nil]
    | cons c r =>
      right
      refine ⟨r, ?_⟩
      have := dropWhile_head hd
      simp only [ne_eq, decide_not, Bool.not_eq_eq_eq_not, Bool.not_false, decide_eq_true_eq] at this
      conv_lhs => rw [← List.takeWhile_append_dropWhile (p := (· ≠ ';')) (l := l), hd, this]
  have hcut : ∀ {dir last l : Text}, path = dir ++ last → '/' ∉ last → (dir = [] ∨ ∃ d, dir = d ++ ['/']) →
      Before ';' last l → cutParams path = dir ++ l := by
    intro dir last l h1 h2 h3 h4
    have h5 : path.reverse.takeWhile (· ≠ '/') = last.reverse := by
      rw [h1, List.reverse_append]
      refine (takeWhile_split (fun c hc => ?_) ?_).1
      · simp only [ne_eq, decide_not, Bool.not_eq_eq_eq_not, Bool.not_true, decide_eq_false_iff_not]
        rintro rfl
        exact h2 (List.mem_reverse.1 hc)
      · rcases h3 with rfl | ⟨d, rfl⟩
        · exact .inl rfl
        · exact .inr ⟨'/', d.reverse, by simp, by decide⟩
    unfold cutParams
    simp only [h5, List.reverse_reverse]
    rw [h1, List.length_append, Nat.add_sub_cancel, List.take_left]
    congr 1
    rw [← (before_iff _ _ _).2 h4, ← (before_iff _ _ _).2 (hbefore last)]
  constructor
  · rintro rfl
    let last := (path.reverse.takeWhile (· ≠ '/')).reverse
    let dir := (path.reverse.dropWhile (· ≠ '/')).reverse
    have h1 : path = dir ++ last := by
      rw [← List.reverse_append, List.takeWhile_append_dropWhile, List.reverse_reverse]
    have h2 : '/' ∉ last := fun h => by simpa using List.mem_takeWhile_imp (List.mem_reverse.1 h)
    have h3 : dir = [] ∨ ∃ d, dir = d ++ ['/'] := by
      cases hd : path.reverse.dropWhile (· ≠ '/') with
      | nil => exact .inl (by show List.reverse _ = _; rw [hd]; rfl)
      | cons c r =>
        have := dropWhile_head hd
        simp only [ne_eq, decide_not, Bool.not_eq_eq_eq_not, Bool.not_false, decide_eq_true_eq] at this
        exact .inr ⟨r.reverse, by show List.reverse _ = _; rw [hd, this]; simp⟩
    exact ⟨dir, last, _, h1, h2, h3, hbefore last, hcut h1 h2 h3 (hbefore last)⟩
  · rintro ⟨dir, last, l, h1, h2, h3, h4, rfl⟩
    exact hcut h1 h2 h3 h4

theorem usesParams_iff (s : Text) : String.ofList s ∈ usesParams ↔ s ∈ paramSchemes := by
  have h : ∀ w : String, String.ofList s = w ↔ s = w.toList := by
    intro w
    constructor
    · rintro rfl; simp
    · rintro rfl; simp
  unfold usesParams paramSchemes
  simp only [List.mem_cons, List.not_mem_nil, or_false, h]
  exact Iff.rfl

theorem pathQuery_iff (t path query : Text) :
    ((partitionAt '?' (partitionAt '#' t).1).1 = path ∧ ((partitionAt '?' (partitionAt '#' t).1).2).getD [] = query) ↔
      PathQuery t path query := by
  constructor
  · rintro ⟨rfl, rfl⟩
    obtain ⟨h1, h2⟩ := partitionAt_spec '?' (partitionAt '#' t).1
    refine ⟨_, (before_iff _ _ _).1 rfl, h1, ?_⟩
    cases hp : (partitionAt '?' (partitionAt '#' t).1).2 with
    | none => rw [hp] at h2; right; exact ⟨by simpa using h2, rfl⟩
    | some r => rw [hp] at h2; left; exact h2
  · rintro ⟨u, h1, h2, h3⟩
    rw [(before_iff _ _ _).2 h1]
    rcases h3 with rfl | ⟨rfl, rfl⟩
    · rw [partitionAt_append h2]; exact ⟨rfl, rfl⟩
    · rw [partitionAt_none h2]; exact ⟨rfl, rfl⟩

/-! ## The query -/

theorem pieces_iff (t : Text) (ps : List Text) : (splitAll '&' t).flatMap (splitAll ';') = ps ↔ Pieces t ps := by
  have hcons : ∀ (c x : Char) (t : Text), x ≠ c → ∃ w ws, splitAll c t = w :: ws ∧ splitAll c (x :: t) = (x :: w) :: ws := by
    intro c x t hx
    have hne : ∀ t, splitAll c t ≠ [] := by
      intro t
      cases t with
      | nil => simp [splitAll]
      | cons y t => rw [splitAll]; split; · simp
                    · split <;> simp
    cases h : splitAll c t with
    | nil => exact absurd h (hne t)
    | cons w ws => exact ⟨w, ws, rfl, by rw [splitAll, if_neg hx, h]⟩
  have key : ∀ t, Pieces t ((splitAll '&' t).flatMap (splitAll ';')) := by
    intro t
    induction t with
    | nil => exact .last (by simp)
    | cons x t ih =>
      have hx : x = '&' ∨ x = ';' ∨ (x ≠ '&' ∧ x ≠ ';') := by
        by_cases h1 : x = '&'
        · exact .inl h1
        · by_cases h2 : x = ';'
          · exact .inr (.inl h2)
          · exact .inr (.inr ⟨h1, h2⟩)
      rcases hx with rfl | rfl | ⟨h1, h2⟩
      · have : splitAll '&' ('&' :: t) = [] :: splitAll '&' t := by simp [splitAll]
        rw [this, List.flatMap_cons]
        exact Pieces.more (p := []) (by simp) (.inl rfl) ih
      · obtain ⟨w, ws, hw, hs⟩ := hcons '&' ';' t (by decide)
        rw [hs, List.flatMap_cons]
        rw [hw, List.flatMap_cons] at ih
        have : splitAll ';' (';' :: w) = [] :: splitAll ';' w := by simp [splitAll]
        rw [this]
        exact Pieces.more (p := []) (by simp) (.inr rfl) ih
      · obtain ⟨w, ws, hw, hs⟩ := hcons '&' x t h1
        rw [hs, List.flatMap_cons]
        rw [hw, List.flatMap_cons] at ih
        obtain ⟨v, vs, hv, hs'⟩ := hcons ';' x w h2
        rw [hs']
        rw [hv] at ih
        simp only [List.cons_append] at ih ⊢
        generalize vs ++ ws.flatMap (splitAll ';') = rest at ih
        have hp : ∀ {p : Text}, (∀ c ∈ p, c ≠ '&' ∧ c ≠ ';') → ∀ c ∈ x :: p, c ≠ '&' ∧ c ≠ ';' := by
          intro p hp c hc
          rcases List.mem_cons.1 hc with rfl | hc
          · exact ⟨h1, h2⟩
          · exact hp c hc
        cases ih with
        | last h => exact .last (hp h)
        | more h hc h' => exact Pieces.more (p := x :: v) (hp h) hc h'
  have huniq : ∀ {t ps qs}, Pieces t ps → Pieces t qs → ps = qs := by
    intro t ps qs h
    induction h generalizing qs with
    | @last p hp =>
      intro h'
      cases h' with
      | last => rfl
      | @more p' c t' ps' hp' hc _ =>
        have := hp c (by simp)
        rcases hc with rfl | rfl
        · exact absurd rfl this.1
        · exact absurd rfl this.2
    | @more p c t ps hp hc _ ih =>
      intro h'
      generalize hs : p ++ c :: t = s at h'
      cases h' with
      | last hp' =>
        have := hp' c (by rw [← hs]; simp)
        rcases hc with rfl | rfl
        · exact absurd rfl this.1
        · exact absurd rfl this.2
      | @more p' c' t' ps' hp' hc' h' =>
        have hsep : ∀ {x : Char}, x = '&' ∨ x = ';' → (fun y : Char => !(y = '&' || y = ';')) x = false := by
          rintro x (rfl | rfl) <;> decide
        have hin : ∀ {p : Text}, (∀ c ∈ p, c ≠ '&' ∧ c ≠ ';') → ∀ c ∈ p, (fun y : Char => !(y = '&' || y = ';')) c = true := by
          intro p hp c hc
          simp [hp c hc]
        have e1 := takeWhile_split (r := c :: t) (hin hp) (.inr ⟨c, t, rfl, hsep hc⟩)
        have e2 := takeWhile_split (r := c' :: t') (hin hp') (.inr ⟨c', t', rfl, hsep hc'⟩)
        rw [hs] at e1
        have e3 : p = p' := e1.1.symm.trans e2.1
        have e4 : c :: t = c' :: t' := e1.2.symm.trans e2.2
        injection e4 with _ e4
        subst e3 e4
        rw [ih h']
  constructor
  · rintro rfl; exact key t
  · intro h; exact huniq (key t) h

theorem hexDigit_iff (c : Char) (x : Nat) : hexDigit? c = some x ↔ HexDigit c x := by
  have hval : ∀ d : Char, c = d ↔ c.toNat = d.toNat := fun d =>
    ⟨fun h => h ▸ rfl, fun h => by rw [← Char.ofNat_toNat c, ← Char.ofNat_toNat d, h]⟩
  constructor
  · intro h
    unfold hexDigit? at h
    split at h
    · next hd =>
      have := (digit_iff c).1 hd
      injection h with h
      left
      have : ∀ n : Fin 10, hexDigits[n.val]? = some (Char.ofNat (48 + n.val)) := by decide
      have := this ⟨x, by omega⟩
      simp only at this
      rw [this, ← Char.ofNat_toNat c]
      congr 2
      omega
    · split at h
      · next hd =>
        have h1 : 97 ≤ c.toNat ∧ c.toNat ≤ 102 := hd
        injection h with h
        right
        have : ∀ n : Fin 6, "0123456789abcdef".toList[10 + n.val]? = some (Char.ofNat (97 + n.val)) := by decide
        have := this ⟨x - 10, by omega⟩
        simp only at this
        rw [show x = 10 + (x - 10) by omega, this, ← Char.ofNat_toNat c]
        congr 2
        omega
      · split at h
        · next hd =>
          have h1 : 65 ≤ c.toNat ∧ c.toNat ≤ 70 := hd
          injection h with h
          left
          have : ∀ n : Fin 6, hexDigits[10 + n.val]? = some (Char.ofNat (65 + n.val)) := by decide
          have := this ⟨x - 10, by omega⟩
          simp only at this
          rw [show x = 10 + (x - 10) by omega, this, ← Char.ofNat_toNat c]
          congr 2
          omega
        · cases h
  · have hall : ∀ n : Fin 16, ∀ d, (hexDigits[n.val]? = some d → hexDigit? d = some n.val) ∧
        ("0123456789abcdef".toList[n.val]? = some d → hexDigit? d = some n.val) := by
      have h1 : ∀ n : Fin 16, (hexDigits[n.val]?.bind hexDigit?) = some n.val := by decide
      have h2 : ∀ n : Fin 16, ("0123456789abcdef".toList[n.val]?.bind hexDigit?) = some n.val := by decide
      intro n d
      refine ⟨fun h => ?_, fun h => ?_⟩
      · have := h1 n; rw [h] at this; exact this
      · have := h2 n; rw [h] at this; exact this
    rintro (h | h)
    · have hx : x < 16 := (List.getElem?_eq_some_iff.1 h).1
      exact (hall ⟨x, hx⟩ c).1 h
    · have hx : x < 16 := (List.getElem?_eq_some_iff.1 h).1
      exact (hall ⟨x, hx⟩ c).2 h

/-- `unquote` after `replace`, one step at a time. -/
theorem unquote_step (c : Char) (t : Text) :
    (∃ a b x y r, c = '%' ∧ t = a :: b :: r ∧ HexDigit a x ∧ HexDigit b y ∧
      unquote (plusToSpace (c :: t)) = Char.ofNat (16 * x + y) :: unquote (plusToSpace r)) ∨
    ((∀ a b x y r, c :: t = '%' :: a :: b :: r → ¬ (HexDigit a x ∧ HexDigit b y)) ∧
      unquote (plusToSpace (c :: t)) = (if c = '+' then ' ' else c) :: unquote (plusToSpace t)) := by
  have hps : ∀ (c : Char) (t : Text), plusToSpace (c :: t) = (if c = '+' then ' ' else c) :: plusToSpace t := fun _ _ => rfl
  by_cases hc : c = '%'
  swap
  · right
    refine ⟨fun a b x y r h => by injection h with h; exact absurd h hc, ?_⟩
    rw [hps, unquote_cons]
    split
    · decide
    · exact hc
  subst hc
  have hplus : ∀ a x, hexDigit? (if a = '+' then ' ' else a) = some x ↔ HexDigit a x := by
    intro a x
    rw [← hexDigit_iff]
    split
    · next h => rw [h]; exact ⟨fun h => absurd h (by rw [show hexDigit? ' ' = none by decide]; simp),
        fun h => absurd h (by rw [show hexDigit? '+' = none by decide]; simp)⟩
    · exact Iff.rfl
  match t with
  | [] => right; exact ⟨fun a b x y r h => by simp at h, rfl⟩
  | [a] => right; exact ⟨fun a b x y r h => by simp at h, rfl⟩
  | a :: b :: r =>
    have hu : unquote (plusToSpace ('%' :: a :: b :: r)) =
        match hexDigit? (if a = '+' then ' ' else a), hexDigit? (if b = '+' then ' ' else b) with
        | some x, some y => Char.ofNat (16 * x + y) :: unquote (plusToSpace r)
        | _, _ => '%' :: unquote (plusToSpace (a :: b :: r)) := by
      rw [hps, hps, hps, if_neg (by decide), unquote, if_pos rfl]
      cases hexDigit? (if a = '+' then ' ' else a) <;> cases hexDigit? (if b = '+' then ' ' else b) <;> rfl
    cases hx : hexDigit? (if a = '+' then ' ' else a) with
    | none =>
      right
      refine ⟨fun a' b' x y r' h hh => ?_, ?_⟩
      · injection h with _ h; injection h with h _
        subst h
        rw [(hplus a x).2 hh.1] at hx
        cases hx
      · rw [hu, hx]; rfl
    | some x =>
      cases hy : hexDigit? (if b = '+' then ' ' else b) with
      | none =>
        right
        refine ⟨fun a' b' x y r' h hh => ?_, ?_⟩
        · injection h with _ h; injection h with _ h; injection h with h _
          subst h
          rw [(hplus b y).2 hh.2] at hy
          cases hy
        · rw [hu, hx, hy]; rfl
      | some y =>
        left
        exact ⟨a, b, x, y, r, rfl, rfl, (hplus a x).1 hx, (hplus b y).1 hy, by rw [hu, hx, hy]⟩

theorem decoded_iff (t u : Text) : unquote (plusToSpace t) = u ↔ Decoded t u := by
  have key : ∀ n (t : Text), t.length ≤ n → Decoded t (unquote (plusToSpace t)) := by
    intro n
    induction n with
    | zero => intro t ht; rw [List.length_eq_zero_iff.1 (Nat.le_zero.1 ht)]; exact .nil
    | succ n ih =>
      intro t ht
      match t with
      | [] => exact .nil
      | c :: t =>
        rw [List.length_cons] at ht
        rcases unquote_step c t with ⟨a, b, x, y, r, rfl, rfl, h1, h2, h3⟩ | ⟨h1, h2⟩
        · rw [h3]
          simp only [List.length_cons] at ht
          exact .escape h1 h2 (ih r (by omega))
        · rw [h2]
          by_cases hc : c = '+'
          · subst hc
            rw [if_pos rfl]
            exact .plus (ih t (by omega))
          · rw [if_neg hc]
            exact .char hc h1 (ih t (by omega))
  constructor
  · rintro rfl; exact key _ t le_rfl
  · intro h
    induction h with
    | nil => rfl
    | @plus t u _ ih =>
      rcases unquote_step '+' t with ⟨a, b, x, y, r, h, -⟩ | ⟨-, h2⟩
      · exact absurd h (by decide)
      · rw [h2, ih, if_pos rfl]
    | @escape a b x y t u ha hb _ ih =>
      rcases unquote_step '%' (a :: b :: t) with ⟨a', b', x', y', r, -, h, h1, h2, h3⟩ | ⟨h, -⟩
      · injection h with e1 h; injection h with e2 e3
        subst e1 e2 e3
        have e4 := (hexDigit_iff a x).2 ha
        rw [(hexDigit_iff a x').2 h1] at e4
        have e5 := (hexDigit_iff b y).2 hb
        rw [(hexDigit_iff b y').2 h2] at e5
        injection e4 with e4; injection e5 with e5
        rw [h3, ih, e4, e5]
      · exact absurd ⟨ha, hb⟩ (h a b x y t rfl)
    | @char c t u hc hn _ ih =>
      rcases unquote_step c t with ⟨a, b, x, y, r, rfl, rfl, h1, h2, -⟩ | ⟨-, h2⟩
      · exact absurd ⟨h1, h2⟩ (hn a b x y r rfl)
      · rw [h2, ih, if_neg hc]

theorem item_iff (p : Text) (e : Text × Text) : parsePair p = some e ↔ Item p e := by
  constructor
  · intro h
    unfold parsePair at h
    have hs := partitionAt_spec '=' p
    cases hp : partitionAt '=' p with
    | mk a o =>
      rw [hp] at h hs
      cases o with
      | none => cases h
      | some b =>
        cases b with
        | nil => cases h
        | cons x b =>
          simp only at h hs
          injection h with h
          rw [← h]
          exact ⟨a, x :: b, hs.2, hs.1, by simp, (decoded_iff _ _).1 rfl, (decoded_iff _ _).1 rfl⟩
  · rintro ⟨a, b, rfl, ha, hb, h1, h2⟩
    unfold parsePair
    rw [partitionAt_append ha]
    obtain ⟨x, b, rfl⟩ := List.exists_cons_of_ne_nil hb
    simp only
    rw [(decoded_iff _ _).2 h1, (decoded_iff _ _).2 h2]

theorem items_iff (ps : List Text) (es : List (Text × Text)) : ps.filterMap parsePair = es ↔ Items ps es := by
  constructor
  · rintro rfl
    induction ps with
    | nil => exact .nil
    | cons p ps ih =>
      rw [List.filterMap_cons]
      cases hp : parsePair p with
      | none => exact .skip (fun e he => by rw [(item_iff p e).2 he] at hp; cases hp) ih
      | some e => exact .item ((item_iff p e).1 hp) ih
  · intro h
    induction h with
    | nil => rfl
    | item h _ ih => rw [List.filterMap_cons, (item_iff _ _).2 h, ih]
    | @skip p ps es h _ ih =>
      have : parsePair p = none := by
        cases hp : parsePair p with
        | none => rfl
        | some e => exact absurd ((item_iff p e).1 hp) (h e)
      rw [List.filterMap_cons, this, ih]

/-! ## The dictionary -/

theorem ofItems_snoc {α : Type} (xs : List (Text × α)) (e : Text × α) :
    Dict.ofItems (xs ++ [e]) = Dict.set (Dict.ofItems xs) e.1 e.2 := by
  unfold Dict.ofItems
  rw [List.foldl_append]
  rfl

theorem ofItems_unique {α : Type} (xs : List (Text × α)) : Dict.Unique (Dict.ofItems xs) := by
  induction xs using List.reverseRecOn with
  | nil => exact List.nodup_nil
  | append_singleton xs e ih => rw [ofItems_snoc]; exact Dict.unique_set ih _ _

theorem lastEntry_iff (es : List (Text × Text)) (k v : Text) : Dict.get? (Dict.ofItems es) k = some v ↔ LastEntry es k v := by
  induction es using List.reverseRecOn with
  | nil =>
    constructor
    · intro h; cases h
    · rintro ⟨xs, ys, h, -⟩; simp at h
  | append_singleton es e ih =>
    obtain ⟨k', v'⟩ := e
    rw [ofItems_snoc, Dict.get?_set]
    simp only
    by_cases hk : k' = k
    · rw [if_pos hk]
      subst hk
      constructor
      · intro h
        injection h with h
        exact ⟨es, [], by rw [h], by simp⟩
      · rintro ⟨xs, ys, h, hy⟩
        rcases List.eq_nil_or_concat ys with rfl | ⟨ys', y, rfl⟩
        · have := (List.append_inj' h rfl).2
          simp only [List.cons.injEq, Prod.mk.injEq, true_and, and_true] at this
          rw [this]
        · exfalso
          rw [List.concat_eq_append, ← List.cons_append, ← List.append_assoc] at h
          have := (List.append_inj' h rfl).2
          injection this with this
          exact hy y (by simp) (by rw [← this])
    · rw [if_neg hk, ih]
      constructor
      · rintro ⟨xs, ys, rfl, hy⟩
        refine ⟨xs, ys ++ [(k', v')], by simp, ?_⟩
        intro e he
        rcases List.mem_append.1 he with he | he
        · exact hy e he
        · rw [List.mem_singleton.1 he]; exact hk
      · rintro ⟨xs, ys, h, hy⟩
        rcases List.eq_nil_or_concat ys with rfl | ⟨ys', y, rfl⟩
        · exfalso
          have := (List.append_inj' h rfl).2
          simp only [List.cons.injEq, Prod.mk.injEq, and_true] at this
          exact hk this.1
        · rw [List.concat_eq_append, ← List.cons_append, ← List.append_assoc] at h
          refine ⟨xs, ys', (List.append_inj' h rfl).1, fun e he => hy e (by simp [he])⟩

theorem balanced_iff (a : Text) : ¬ Balanced a ↔ ('[' ∈ a ∧ ']' ∉ a) ∨ (']' ∈ a ∧ '[' ∉ a) := by
  unfold Balanced
  by_cases h1 : '[' ∈ a <;> by_cases h2 : ']' ∈ a <;> simp [h1, h2]

theorem urlparse_cases (t : Text) :
    (∃ s r a tail, Scheme t s r ∧ Authority r a tail ∧ ¬ Balanced a ∧ urlparse t = .error .valueError) ∨
    ∃ s r a tail path query p, Scheme t s r ∧ Authority r a tail ∧ Balanced a ∧ PathQuery tail path query ∧
      (s ∈ paramSchemes ∧ WithoutParams path p ∨ s ∉ paramSchemes ∧ p = path) ∧ urlparse t = .ok ⟨s, a, p, query⟩ := by
  have hs := (scheme_iff t _ _).1 (Prod.mk.eta (p := splitScheme t)).symm
  have hau := (authority_iff (splitScheme t).2 _ _).1 (Prod.mk.eta (p := authorityOf (splitScheme t).2)).symm
  have heq : urlparse t = if ('[' ∈ (authorityOf (splitScheme t).2).1 ∧ ']' ∉ (authorityOf (splitScheme t).2).1) ∨
      (']' ∈ (authorityOf (splitScheme t).2).1 ∧ '[' ∉ (authorityOf (splitScheme t).2).1) then .error .valueError
    else .ok ⟨(splitScheme t).1, (authorityOf (splitScheme t).2).1,
      if String.ofList (splitScheme t).1 ∈ usesParams then
        cutParams (partitionAt '?' (partitionAt '#' (authorityOf (splitScheme t).2).2).1).1
      else (partitionAt '?' (partitionAt '#' (authorityOf (splitScheme t).2).2).1).1,
      ((partitionAt '?' (partitionAt '#' (authorityOf (splitScheme t).2).2).1).2).getD []⟩ := rfl
  rw [heq]
  by_cases hb : Balanced (authorityOf (splitScheme t).2).1
  · right
    rw [if_neg (fun h => (balanced_iff _).2 h hb)]
    refine ⟨_, _, _, _, _, _, _, hs, hau, hb, (pathQuery_iff _ _ _).1 ⟨rfl, rfl⟩, ?_, rfl⟩
    by_cases hp : String.ofList (splitScheme t).1 ∈ usesParams
    · left
      rw [if_pos hp]
      exact ⟨(usesParams_iff _).1 hp, (cutParams_iff _ _).1 rfl⟩
    · right
      rw [if_neg hp]
      exact ⟨fun h => hp ((usesParams_iff _).2 h), rfl⟩
  · left
    exact ⟨_, _, _, _, hs, hau, hb, if_pos ((balanced_iff _).1 hb)⟩

theorem scheme_unique {t s r s' r' : Text} (h : Scheme t s r) (h' : Scheme t s' r') : s = s' ∧ r = r' := by
  have := (scheme_iff t s r).2 h
  rw [(scheme_iff t s' r').2 h'] at this
  injection this with h1 h2
  exact ⟨h1.symm, h2.symm⟩

theorem authority_unique {t s r s' r' : Text} (h : Authority t s r) (h' : Authority t s' r') : s = s' ∧ r = r' := by
  have := (authority_iff t s r).2 h
  rw [(authority_iff t s' r').2 h'] at this
  injection this with h1 h2
  exact ⟨h1.symm, h2.symm⟩

/-- The address and the entries are unique. -/
theorem uriParts_unique {t a b : Text} {es fs} (h : UriParts t a es) (h' : UriParts t b fs) : a = b ∧ es = fs := by
  obtain ⟨s, r, au, tl, path, q, p, ps, h1, h2, -, h4, h5, h6, h7, h8⟩ := h
  obtain ⟨s', r', au', tl', path', q', p', ps', k1, k2, -, k4, k5, k6, k7, k8⟩ := h'
  obtain ⟨rfl, rfl⟩ := scheme_unique h1 k1
  obtain ⟨rfl, rfl⟩ := authority_unique h2 k2
  obtain ⟨rfl, rfl⟩ := (pathQuery_iff _ _ _).2 h4
  obtain ⟨rfl, rfl⟩ := (pathQuery_iff _ _ _).2 k4
  have hp : p = p' := by
    rcases h5 with ⟨g1, g2⟩ | ⟨g1, g2⟩ <;> rcases k5 with ⟨f1, f2⟩ | ⟨f1, f2⟩
    · rw [← (cutParams_iff _ _).2 g2, ← (cutParams_iff _ _).2 f2]
    · exact absurd g1 f1
    · exact absurd f1 g1
    · rw [g2, f2]
  subst hp
  rw [← (pieces_iff _ _).2 h7] at h8
  rw [← (pieces_iff _ _).2 k7] at k8
  refine ⟨?_, by rw [← (items_iff _ _).2 h8, ← (items_iff _ _).2 k8]⟩
  rcases h6 with ⟨g1, g2⟩ | ⟨g1, g2⟩ <;> rcases k6 with ⟨f1, f2⟩ | ⟨f1, f2⟩
  · rw [g2, f2]
  · exact absurd g1 f1
  · exact absurd f1 g1
  · rw [g2, f2]

/-- C109. `URI.parse`: the parts are those of the grammar, or the brackets do not match. -/
theorem C109_parse (t : Text) :
    (∃ address es d, UriParts t address es ∧ URI.parse t = .ok d ∧ Dict.Unique d ∧
      ∀ k v, (k, v) ∈ d ↔ k = "address".toList ∧ v = address ∨ k ≠ "address".toList ∧ LastEntry es k v) ∨
    ((∃ s r a tail, Scheme t s r ∧ Authority r a tail ∧ ¬ Balanced a) ∧ URI.parse t = .error .valueError) := by
  rcases urlparse_cases t with ⟨s, r, a, tail, h1, h2, h3, h4⟩ | ⟨s, r, a, tail, path, query, p, h1, h2, h3, h4, h5, h6⟩
  · right
    refine ⟨⟨s, r, a, tail, h1, h2, h3⟩, ?_⟩
    unfold URI.parse
    rw [h4]
    rfl
  · left
    refine ⟨if p ≠ [] then p else a, parseQsl query, Dict.set (Dict.ofItems (parseQsl query)) "address".toList (if p ≠ [] then p else a),
      ⟨s, r, a, tail, path, query, p, _, h1, h2, h3, h4, h5, ?_, (pieces_iff _ _).1 rfl, (items_iff _ _).1 rfl⟩, ?_,
      Dict.unique_set (ofItems_unique _) _ _, ?_⟩
    · by_cases hp : p = []
      · exact .inl ⟨hp, by rw [if_neg (not_not.2 hp)]⟩
      · exact .inr ⟨hp, by rw [if_pos hp]⟩
    · unfold URI.parse
      rw [h6]
      rfl
    · intro k v
      have hu : Dict.Unique (Dict.set (Dict.ofItems (parseQsl query)) "address".toList (if p ≠ [] then p else a)) :=
        Dict.unique_set (ofItems_unique _) _ _
      rw [show (k, v) ∈ Dict.set (Dict.ofItems (parseQsl query)) "address".toList (if p ≠ [] then p else a) ↔
        Dict.get? (Dict.set (Dict.ofItems (parseQsl query)) "address".toList (if p ≠ [] then p else a)) k = some v from
        ⟨Dict.get?_of_mem hu, Dict.get?_mem⟩, Dict.get?_set, ← lastEntry_iff]
      by_cases hk : "address".toList = k
      · rw [if_pos hk]
        constructor
        · intro h; injection h with h; exact .inl ⟨hk.symm, h.symm⟩
        · rintro (⟨-, h⟩ | ⟨h, -⟩)
          · rw [h]
          · exact absurd hk.symm h
      · rw [if_neg hk]
        constructor
        · intro h; exact .inr ⟨Ne.symm hk, h⟩
        · rintro (⟨h, -⟩ | ⟨-, h⟩)
          · exact absurd h.symm hk
          · exact h

/-! ## The amount -/

theorem truncated_iff (w : ℚ) (n : Int) : (if 0 ≤ w then ⌊w⌋ else ⌈w⌉) = n ↔ Truncated w n := by
  have hval : Truncated w (if 0 ≤ w then ⌊w⌋ else ⌈w⌉) := by
    unfold Truncated
    split
    · next h =>
      have h1 := Int.floor_le w
      have h2 := Int.lt_floor_add_one w
      have h3 : (0 : ℚ) ≤ (⌊w⌋ : ℚ) := by exact_mod_cast Int.floor_nonneg.2 h
      refine ⟨?_, ?_, mul_nonneg h h3⟩
      · rw [abs_lt]; constructor <;> linarith
      · rw [abs_of_nonneg h3, abs_of_nonneg h]; exact h1
    · next h =>
      rw [not_le] at h
      have h1 := Int.le_ceil w
      have h2 := Int.ceil_lt_add_one w
      have h3 : (⌈w⌉ : ℚ) ≤ 0 := by
        have : ⌈w⌉ ≤ 0 := Int.ceil_le.2 (by simpa using h.le)
        exact_mod_cast this
      refine ⟨?_, ?_, mul_nonneg_of_nonpos_of_nonpos h.le h3⟩
      · rw [abs_lt]; constructor <;> linarith
      · rw [abs_of_nonpos h3, abs_of_neg h]; linarith
  have huniq : ∀ {m n : Int}, Truncated w m → Truncated w n → m = n := by
    rintro m n ⟨h1, h2, h3⟩ ⟨k1, k2, k3⟩
    rw [abs_lt] at h1 k1
    rcases lt_trichotomy w 0 with hw | hw | hw
    · have g1 : (m : ℚ) ≤ 0 := by by_contra hc; rw [not_le] at hc; nlinarith
      have g2 : (n : ℚ) ≤ 0 := by by_contra hc; rw [not_le] at hc; nlinarith
      rw [abs_of_nonpos g1, abs_of_neg hw] at h2
      rw [abs_of_nonpos g2, abs_of_neg hw] at k2
      have e1 : ((m - n : Int) : ℚ) < 1 := by push_cast; linarith
      have e2 : ((n - m : Int) : ℚ) < 1 := by push_cast; linarith
      have e1 : m - n < 1 := by exact_mod_cast e1
      have e2 : n - m < 1 := by exact_mod_cast e2
      omega
    · rw [hw, abs_zero] at h2 k2
      have g1 : (m : ℚ) = 0 := abs_eq_zero.1 (le_antisymm h2 (abs_nonneg _))
      have g2 : (n : ℚ) = 0 := abs_eq_zero.1 (le_antisymm k2 (abs_nonneg _))
      have g1 : m = 0 := by exact_mod_cast g1
      have g2 : n = 0 := by exact_mod_cast g2
      rw [g1, g2]
    · have g1 : 0 ≤ (m : ℚ) := by by_contra hc; rw [not_le] at hc; nlinarith
      have g2 : 0 ≤ (n : ℚ) := by by_contra hc; rw [not_le] at hc; nlinarith
      rw [abs_of_nonneg g1, abs_of_pos hw] at h2
      rw [abs_of_nonneg g2, abs_of_pos hw] at k2
      have e1 : ((m - n : Int) : ℚ) < 1 := by push_cast; linarith
      have e2 : ((n - m : Int) : ℚ) < 1 := by push_cast; linarith
      have e1 : m - n < 1 := by exact_mod_cast e1
      have e2 : n - m < 1 := by exact_mod_cast e2
      omega
  constructor
  · rintro rfl; exact hval
  · intro h; exact huniq hval h

/-- The integer part of a binary64 number is one. -/
theorem truncated_binary {w : ℚ} {n : Int} (hw : Binary64 w) (h : Truncated w n) : Binary64 (n : ℚ) := by
  obtain ⟨m, e, hm, he1, he2, rfl⟩ := hw
  rcases le_or_gt 0 e with he | he
  · have hint : ∃ k : Int, (m : ℚ) * 2 ^ e = (k : ℚ) := by
      obtain ⟨j, rfl⟩ := Int.eq_ofNat_of_zero_le he
      exact ⟨m * 2 ^ j, by push_cast; rw [zpow_natCast]⟩
    obtain ⟨k, hk⟩ := hint
    have : n = k := by
      rw [hk] at h
      obtain ⟨h1, -, -⟩ := h
      have : |((k - n : Int) : ℚ)| < 1 := by push_cast; exact h1
      have : |k - n| < 1 := by exact_mod_cast this
      rw [abs_lt] at this
      omega
    rw [this, ← hk]
    exact ⟨m, e, hm, he1, he2, rfl⟩
  · refine ⟨n, 0, ?_, by norm_num, by norm_num, by simp⟩
    have hm' : |(m : ℚ)| < 2 ^ 53 := by exact_mod_cast hm
    have h2 : |(m : ℚ) * 2 ^ e| ≤ |(m : ℚ)| := by
      rw [abs_mul, abs_of_pos (Float64.two_zpow_pos e)]
      exact mul_le_of_le_one_right (abs_nonneg _) (zpow_le_one_of_nonpos₀ (by norm_num) he.le)
    have : |(n : ℚ)| < 2 ^ 53 := lt_of_le_of_lt (h.2.1.trans h2) hm'
    exact_mod_cast this

/-- `Unit(satoshis = n)` for an integer that is a `float`. -/
theorem unitOf_iff {n : Int} (hn : Binary64 (n : ℚ)) (a : BtcUnit) : ofSatoshis (.int n) = .ok a ↔ UnitOf n a := by
  have hr : Float64.ofInt n = .ok (.fin n) := by unfold Float64.ofInt; rw [Float64.rnd_exact hn]
  have hset : ofSatoshis (.int n) = .ok ⟨n, Float64.rnd (n / 100), Float64.rnd (n / 100000), Float64.rnd (n / 100000000)⟩ :=
    setValues_ok hr
  have hlt : |(n : ℚ)| < 2 ^ 970 * (2 ^ 54 - 1) := (Float64.rnd_finite_iff _).1 ⟨_, Float64.rnd_exact hn⟩
  have hfin : ∀ s : ℚ, 1 ≤ s → |(n : ℚ) / s| < 2 ^ 970 * (2 ^ 54 - 1) := fun s hs => lt_of_le_of_lt (abs_div_le hs) hlt
  have e2 : (10 : ℚ) ^ 2 = 100 := by norm_num
  have e5 : (10 : ℚ) ^ 5 = 100000 := by norm_num
  have e8 : (10 : ℚ) ^ 8 = 100000000 := by norm_num
  rw [hset]
  unfold UnitOf
  rw [e2, e5, e8]
  constructor
  · intro h
    injection h with h
    obtain ⟨x, hx⟩ := (Float64.rnd_finite_iff _).2 (hfin 100 (by norm_num))
    obtain ⟨y, hy⟩ := (Float64.rnd_finite_iff _).2 (hfin 100000 (by norm_num))
    obtain ⟨z, hz⟩ := (Float64.rnd_finite_iff _).2 (hfin 100000000 (by norm_num))
    exact ⟨x, y, z, by rw [← h, hx, hy, hz], Float64.rnd_rounded hx, Float64.rnd_rounded hy, Float64.rnd_rounded hz⟩
  · rintro ⟨x, y, z, rfl, hx, hy, hz⟩
    rw [rnd_iff.2 ⟨hx, hfin 100 (by norm_num)⟩, rnd_iff.2 ⟨hy, hfin 100000 (by norm_num)⟩,
      rnd_iff.2 ⟨hz, hfin 100000000 (by norm_num)⟩]

theorem ofBtc_eq_set (f : Float64) : ofBtc (.float f) = setValues (.float (f.mul btcScale)) := by
  simp only [ofBtc, new, times, Num.toFloat, bind, Except.bind, pure, Except.pure]

/-- Reading the amount, and making a `Unit` of it again. -/
theorem amount_cases (args : Dict Text) :
    (Dict.get? args "amount".toList = none ∧ URI.readAmount args = .ok none) ∨
    ∃ s, Dict.get? args "amount".toList = some s ∧
      ((∃ a, AmountOf s a ∧ URI.readAmount args = .ok (some (.int a.satoshis)) ∧ ofSatoshis (.int a.satoshis) = .ok a) ∨
        ∃ e, NoAmount s e ∧ URI.readAmount args = .error e) := by
  cases hg : Dict.get? args "amount".toList with
  | none => exact .inl ⟨rfl, by unfold URI.readAmount; rw [hg]⟩
  | some s =>
    refine .inr ⟨s, rfl, ?_⟩
    unfold URI.readAmount
    simp only [hg]
    cases hf : parseFloat s with
    | error e =>
      refine .inr ⟨e, ?_, rfl⟩
      rcases (C67_float_error s e).1 hf with ⟨rfl, c, hc, hn⟩ | ⟨rfl, h1, h2⟩
      · exact .unicode hc hn
      · exact .syntax h1 h2
    | ok f =>
      have hfo := (C67_float s f).1 hf
      simp only [bind, Except.bind, pure, Except.pure]
      cases f with
      | nan =>
        refine .inr ⟨.valueError, .nan hfo, ?_⟩
        rcases ofBtc_float .nan with ⟨a, q, -, hq⟩ | ⟨h, -⟩ | ⟨-, neg, hq⟩
        · cases hq
        · rw [h]
        · cases hq
      | inf neg =>
        refine .inr ⟨.overflowError, .infinite hfo, ?_⟩
        have hm : (Float64.inf neg).mul btcScale = .inf (neg != false) := by
          unfold Float64.mul btcScale
          simp only
          rw [if_neg (by simp)]
          rfl
        rcases ofBtc_float (.inf neg) with ⟨a, q, -, hq⟩ | ⟨-, hq⟩ | ⟨h, -⟩
        · rw [hm] at hq; cases hq
        · rw [hm] at hq; cases hq
        · rw [h]
      | fin v =>
        have hm : (Float64.fin v).mul btcScale = Float64.rnd (v * 10 ^ 8) := by
          show Float64.rnd (v * 100000000) = _
          norm_num
        by_cases hv : |v * 10 ^ 8| < 2 ^ 970 * (2 ^ 54 - 1)
        · obtain ⟨w, hw⟩ := (Float64.rnd_finite_iff _).2 hv
          obtain ⟨b, q, hb, hq⟩ | ⟨-, hq⟩ | ⟨-, neg, hq⟩ := ofBtc_float (.fin v)
          · left
            have hset : ofBtc (.float (.fin v)) = setValues (.int (if 0 ≤ w then ⌊w⌋ else ⌈w⌉)) := by
              rw [ofBtc_eq_set, hm, hw, setValues_float]
            have htr := (truncated_iff w _).1 rfl
            have hr := Float64.rnd_rounded hw
            rw [hset] at hb
            have hu := (unitOf_iff (truncated_binary hr.1.1 htr) b).1 hb
            have hs : b.satoshis = if 0 ≤ w then ⌊w⌋ else ⌈w⌉ := by
              obtain ⟨x, y, z, rfl, -⟩ := hu
              rfl
            refine ⟨b, ⟨v, w, _, hfo, hv, hr, htr, hu⟩, by rw [hset, hb], ?_⟩
            rw [hs]
            exact hb
          · rw [hm, hw] at hq; cases hq
          · rw [hm, hw] at hq; cases hq
        · right
          refine ⟨.overflowError, .large hfo (not_lt.1 hv), ?_⟩
          have hn : ∀ w, Float64.rnd (v * 10 ^ 8) ≠ .fin w := fun w hw => hv ((Float64.rnd_finite_iff _).1 ⟨w, hw⟩)
          rcases ofBtc_float (.fin v) with ⟨a, q, -, hq⟩ | ⟨-, hq⟩ | ⟨h, -⟩
          · rw [hm] at hq; exact absurd hq (hn q)
          · rw [hm, Float64.rnd_eq] at hq
            split at hq <;> cases hq
          · rw [h]

theorem floatOf_unique {s : Text} {x y : Float64} (hx : FloatOf s x) (hy : FloatOf s y) : x = y := by
  have := (C67_float s x).2 hx
  rw [(C67_float s y).2 hy] at this
  injection this with this
  exact this.symm

theorem amountOf_unique {s : Text} {a b : BtcUnit} (ha : AmountOf s a) (hb : AmountOf s b) : a = b := by
  obtain ⟨v, w, n, h1, h2, h3, h4, h5⟩ := ha
  obtain ⟨v', w', n', k1, k2, k3, k4, k5⟩ := hb
  have hv := floatOf_unique h1 k1
  injection hv with hv
  subst hv
  have hw := rounded_unique h3 k3
  subst hw
  have hn : n = n' := by rw [← (truncated_iff w n).2 h4, ← (truncated_iff w n').2 k4]
  subst hn
  have := (unitOf_iff (truncated_binary h3.1.1 h4) a).2 h5
  rw [(unitOf_iff (truncated_binary h3.1.1 h4) b).2 k5] at this
  injection this with this
  exact this.symm

theorem noAmount_iff {s : Text} {e : Err} : NoAmount s e → (∀ a, ¬ AmountOf s a) ∧ ∀ e', NoAmount s e' → e' = e := by
  have hs : ∀ {x : Float64}, FloatOf s x → ∀ c ∈ s, ∃ y, Seen c y := by
    intro x hx c hc
    by_contra hn
    have := (C67_float_error s .unicodeEncodeError).2 (.inl ⟨rfl, c, hc, fun y hy => hn ⟨y, hy⟩⟩)
    rw [(C67_float s x).2 hx] at this
    cases this
  intro h
  constructor
  · rintro a ⟨v, w, n, h1, h2, -⟩
    cases h with
    | unicode hc hn => obtain ⟨y, hy⟩ := hs h1 _ hc; exact hn y hy
    | «syntax» _ hn => exact hn _ h1
    | nan h => cases floatOf_unique h h1
    | infinite h => cases floatOf_unique h h1
    | large h hl =>
      have := floatOf_unique h h1
      injection this with this
      subst this
      exact absurd h2 (not_lt.2 hl)
  · intro e' h'
    cases h with
    | unicode hc hn =>
      cases h' with
      | unicode => rfl
      | «syntax» hc' _ => obtain ⟨y, hy⟩ := hc' _ hc; exact absurd hy (hn y)
      | nan h => obtain ⟨y, hy⟩ := hs h _ hc; exact absurd hy (hn y)
      | infinite h => obtain ⟨y, hy⟩ := hs h _ hc; exact absurd hy (hn y)
      | large h _ => obtain ⟨y, hy⟩ := hs h _ hc; exact absurd hy (hn y)
    | «syntax» hc' hn' =>
      cases h' with
      | unicode hc hn => obtain ⟨y, hy⟩ := hc' _ hc; exact absurd hy (hn y)
      | «syntax» => rfl
      | nan h => rfl
      | infinite h => exact absurd h (hn' _)
      | large h _ => exact absurd h (hn' _)
    | nan h1 =>
      cases h' with
      | unicode hc hn => obtain ⟨y, hy⟩ := hs h1 _ hc; exact absurd hy (hn y)
      | «syntax» _ hn => rfl
      | nan h => rfl
      | infinite h => cases floatOf_unique h h1
      | large h _ => cases floatOf_unique h h1
    | infinite h1 =>
      cases h' with
      | unicode hc hn => obtain ⟨y, hy⟩ := hs h1 _ hc; exact absurd hy (hn y)
      | «syntax» _ hn => exact absurd h1 (hn _)
      | nan h => cases floatOf_unique h h1
      | infinite h => rfl
      | large h _ => rfl
    | large h1 _ =>
      cases h' with
      | unicode hc hn => obtain ⟨y, hy⟩ := hs h1 _ hc; exact absurd hy (hn y)
      | «syntax» _ hn => exact absurd h1 (hn _)
      | nan h => cases floatOf_unique h h1
      | infinite h => rfl
      | large h _ => rfl

/-! ## The whole text -/

theorem lastEntry_unique {es : List (Text × Text)} {k v w : Text} (h : LastEntry es k v) (h' : LastEntry es k w) : v = w := by
  rw [← lastEntry_iff] at h h'
  rw [h] at h'
  injection h'

/-- What `URI(text)` does, case by case. -/
theorem new_cases (H : Hashes) (t : Text) :
    (∃ address es u, ReadsAs H t address es u ∧ URI.new H (.text t) = .ok u) ∨
      ∃ e, NoUri H t e ∧ URI.new H (.text t) = .error e := by
  rcases C109_parse t with ⟨address, es, d, hparts, hd, hu, hmem⟩ | ⟨⟨s, r, a, tail, h1, h2, h3⟩, h4⟩
  swap
  · exact .inr ⟨.valueError, .brackets h1 h2 h3, by unfold URI.new; simp only [h4, bind, Except.bind]⟩
  have hget : ∀ k v, Dict.get? d k = some v ↔ k = "address".toList ∧ v = address ∨ k ≠ "address".toList ∧ LastEntry es k v :=
    fun k v => ⟨fun h => (hmem k v).1 (Dict.get?_mem h), fun h => Dict.get?_of_mem hu ((hmem k v).2 h)⟩
  have hget' : ∀ k v, k ≠ "address".toList → (Dict.get? d k = some v ↔ LastEntry es k v) := by
    intro k v hk
    rw [hget]
    exact ⟨fun h => h.elim (fun h => absurd h.1 hk) fun h => h.2, fun h => .inr ⟨hk, h⟩⟩
  let rest : Dict Value := (d.filter fun e => e.1 ≠ "amount".toList).map fun e => (e.1, .text e.2)
  have hrest : ∀ k, k ≠ "amount".toList → Dict.get? rest k = (Dict.get? d k).map Value.text := by
    intro k hk
    show Dict.get? ((d.filter fun e => e.1 ≠ "amount".toList).map fun e => (e.1, Value.text e.2)) k = _
    rw [Dict.get?_map]
    have := Dict.get?_filter d (fun x => decide (x ≠ "amount".toList)) k
    rw [this, if_pos (by simpa using hk)]
  have haddr : Dict.get? rest "address".toList = some (.text address) := by
    rw [hrest _ (by decide), (hget _ _).2 (.inl ⟨rfl, rfl⟩)]
    rfl
  have hattr : ∀ k, k ≠ "amount".toList → k ≠ "address".toList → ∀ v : Value,
      Dict.get? rest k = some v ↔ ∃ s, LastEntry es k s ∧ v = .text s := by
    intro k h1 h2 v
    rw [hrest k h1, Option.map_eq_some_iff]
    refine exists_congr fun s => ?_
    rw [hget' k s h2]
    exact and_congr_right fun _ => eq_comm
  have hnew : ∀ am, URI.readAmount d = .ok am → URI.new H (.text t) = URI.buildFromDict H (am.map some) rest := by
    intro am ham
    unfold URI.new
    simp only [hd, ham, bind, Except.bind]
    rfl
  have hextras : ∀ ex : Dict Value, ex = rest.filter (fun e => e.1 ∉ URI.members) → (ex.map Prod.fst).Nodup ∧
      ∀ k v, (k, v) ∈ ex ↔ k ∉ memberKeys ∧ ∃ s, LastEntry es k s ∧ v = .text s := by
    rintro ex rfl
    have hru : Dict.Unique rest := by
      show (List.map Prod.fst (List.map _ _)).Nodup
      rw [List.map_map]
      exact (List.filter_sublist.map _).nodup hu
    refine ⟨(List.filter_sublist.map _).nodup hru, fun k v => ?_⟩
    rw [List.mem_filter]
    have hm : URI.members = memberKeys := rfl
    simp only [hm, decide_eq_true_eq]
    rw [and_comm]
    refine and_congr_right fun hk => ?_
    have h1 : k ≠ "amount".toList := fun h => hk (by rw [h]; decide)
    have h2 : k ≠ "address".toList := fun h => hk (by rw [h]; decide)
    rw [← hattr k h1 h2 v]
    exact ⟨Dict.get?_of_mem hru, Dict.get?_mem⟩
  have hbuild : ∀ (am : Option Num) (am' : Option BtcUnit),
      (match am with | some n => (ofSatoshis n).map some | none => .ok none) = .ok am' →
      URI.buildFromDict H (am.map some) rest = match Address.fromString H address with
        | .error e => .error e
        | .ok ad => .ok ⟨ad, am', Dict.get? rest "message".toList, Dict.get? rest "label".toList,
            Dict.get? rest "r".toList, rest.filter fun e => e.1 ∉ URI.members⟩ := by
    intro am am' ham
    unfold URI.buildFromDict
    simp only [haddr, URI.readAddress]
    cases hf : Address.fromString H address with
    | error e => rfl
    | ok ad =>
      cases am with
      | none =>
        injection ham with ham
        rw [← ham]
        rfl
      | some n =>
        simp only [ofSatoshis] at ham
        simp only [bind, Except.bind, Option.map, ham]
        rfl
  have finish : ∀ (am : Option Num) (am' : Option BtcUnit), URI.readAmount d = .ok am →
      (match am with | some n => (ofSatoshis n).map some | none => .ok none) = .ok am' →
      (((∀ s, ¬ LastEntry es "amount".toList s) ∧ am' = none) ∨
        ∃ s a, LastEntry es "amount".toList s ∧ AmountOf s a ∧ am' = some a) →
      (∃ address es u, ReadsAs H t address es u ∧ URI.new H (.text t) = .ok u) ∨
        ∃ e, NoUri H t e ∧ URI.new H (.text t) = .error e := by
    intro am am' h1 h2 h3
    rw [hnew am h1, hbuild am am' h2]
    cases hf : Address.fromString H address with
    | error e =>
      refine .inr ⟨e, .address hparts ?_ hf, rfl⟩
      rcases h3 with ⟨h3, -⟩ | ⟨s, a, h3, h4, -⟩
      · exact .inl h3
      · exact .inr ⟨s, a, h3, h4⟩
    | ok ad =>
      refine .inl ⟨address, es, _, ⟨hparts, ?_, h3, ?_, ?_, ?_, hextras _ rfl⟩, rfl⟩
      · obtain ⟨b, p, te, sc, h4, h5, h6⟩ := (C16_from_string_iff H address ad).1 hf
        exact ⟨b, p, te, sc, h4, h5, h6⟩
      · exact hattr _ (by decide) (by decide)
      · exact hattr _ (by decide) (by decide)
      · exact hattr _ (by decide) (by decide)
  rcases amount_cases d with ⟨h1, h2⟩ | ⟨s, h1, ⟨a, h2, h3, h4⟩ | ⟨e, h2, h3⟩⟩
  · refine finish none none h2 rfl (.inl ⟨fun s hs => ?_, rfl⟩)
    rw [(hget' _ _ (by decide)).2 hs] at h1
    cases h1
  · exact finish _ (some a) h3 (by simp only [h4, Except.map]) (.inr ⟨s, a, (hget' _ _ (by decide)).1 h1, h2, rfl⟩)
  · refine .inr ⟨e, .amount hparts ((hget' _ _ (by decide)).1 h1) h2, ?_⟩
    unfold URI.new
    simp only [hd, h3, bind, Except.bind]

theorem parts_balanced {t address s r a tail : Text} {es} (h : UriParts t address es) (h1 : Scheme t s r) (h2 : Authority r a tail) :
    Balanced a := by
  obtain ⟨s', r', au, tl, path, q, p, ps, k1, k2, k3, -⟩ := h
  obtain ⟨rfl, rfl⟩ := scheme_unique h1 k1
  obtain ⟨rfl, rfl⟩ := authority_unique h2 k2
  exact k3

/-- The cases exclude each other. -/
theorem reads_no {H : Hashes} {t address : Text} {es} {u : URI} (h : ReadsAs H t address es u) (e : Err) : ¬ NoUri H t e := by
  intro h'
  cases h' with
  | brackets h1 h2 h3 => exact h3 (parts_balanced h.parts h1 h2)
  | amount h1 h2 h3 =>
    obtain ⟨rfl, rfl⟩ := uriParts_unique h.parts h1
    rcases h.amount with ⟨h4, -⟩ | ⟨s, a, h4, h5, -⟩
    · exact h4 _ h2
    · rw [lastEntry_unique h2 h4] at h3
      exact (noAmount_iff h3).1 a h5
  | address h1 h2 h3 =>
    obtain ⟨rfl, rfl⟩ := uriParts_unique h.parts h1
    obtain ⟨b, p, te, sc, h4, h5, h6⟩ := h.address
    rw [(C16_from_string_iff H _ u.address).2 ⟨b, p, te, sc, h4, h5, h6⟩] at h3
    cases h3

/-- C109. A text is refused exactly for these reasons, with these exceptions. -/
theorem C109_refused (H : Hashes) (t : Text) (e : Err) : URI.new H (.text t) = .error e ↔ NoUri H t e := by
  rcases new_cases H t with ⟨address, es, u, h1, h2⟩ | ⟨e', h1, h2⟩
  · rw [h2]
    exact ⟨fun h => (by cases h), fun h => absurd h (reads_no h1 e)⟩
  · rw [h2]
    constructor
    · intro h; injection h with h; rw [← h]; exact h1
    · intro h
      congr 1
      cases h1 with
      | brackets g1 g2 g3 =>
        cases h with
        | brackets => rfl
        | amount k1 => exact absurd (parts_balanced k1 g1 g2) g3
        | address k1 => exact absurd (parts_balanced k1 g1 g2) g3
      | amount g1 g2 g3 =>
        cases h with
        | brackets k1 k2 k3 => exact absurd (parts_balanced g1 k1 k2) k3
        | amount k1 k2 k3 =>
          obtain ⟨rfl, rfl⟩ := uriParts_unique g1 k1
          rw [lastEntry_unique k2 g2] at k3
          exact (noAmount_iff k3).2 _ g3
        | address k1 k2 =>
          obtain ⟨rfl, rfl⟩ := uriParts_unique g1 k1
          rcases k2 with k2 | ⟨s, a, k2, k3⟩
          · exact absurd g2 (k2 _)
          · rw [lastEntry_unique g2 k2] at g3
            exact absurd k3 ((noAmount_iff g3).1 a)
      | address g1 g2 g3 =>
        cases h with
        | brackets k1 k2 k3 => exact absurd (parts_balanced g1 k1 k2) k3
        | amount k1 k2 k3 =>
          obtain ⟨rfl, rfl⟩ := uriParts_unique g1 k1
          rcases g2 with g2 | ⟨s, a, g2, h3⟩
          · exact absurd k2 (g2 _)
          · rw [lastEntry_unique k2 g2] at k3
            exact absurd h3 ((noAmount_iff k3).1 a)
        | address k1 k2 k3 =>
          obtain ⟨rfl, rfl⟩ := uriParts_unique g1 k1
          rw [g3] at k3
          injection k3

/-- C109. What is read is what the text means. -/
theorem C109_read (H : Hashes) (t : Text) (u : URI) (h : URI.new H (.text t) = .ok u) : ∃ address es, ReadsAs H t address es u := by
  rcases new_cases H t with ⟨address, es, u', h1, h2⟩ | ⟨e, -, h2⟩
  · rw [h2] at h
    injection h with h
    exact ⟨address, es, h ▸ h1⟩
  · rw [h2] at h
    cases h

/-- C109. What means something is read, and the result is unique but for the order of the extras. -/
theorem C109_means (H : Hashes) (t address : Text) (es : List (Text × Text)) (u : URI) (h : ReadsAs H t address es u) :
    ∃ extras, URI.new H (.text t) = .ok { u with extras := extras } ∧ extras.Perm u.extras := by
  rcases new_cases H t with ⟨address', es', u', h1, h2⟩ | ⟨e, h1, -⟩
  swap
  · exact absurd h1 (reads_no h e)
  obtain ⟨rfl, rfl⟩ := uriParts_unique h.parts h1.parts
  have hopt : ∀ {x y : Option Value} {P : Value → Prop}, (∀ v, x = some v ↔ P v) → (∀ v, y = some v ↔ P v) → x = y :=
    fun hx hy => Option.ext fun v => (hx v).trans (hy v).symm
  have e1 : u'.address = u.address := by
    obtain ⟨b, p, te, sc, g4, g5, g6⟩ := h.address
    obtain ⟨b', p', te', sc', k4, k5, k6⟩ := h1.address
    have g := (C16_from_string_iff H address u.address).2 ⟨b, p, te, sc, g4, g5, g6⟩
    rw [(C16_from_string_iff H address u'.address).2 ⟨b', p', te', sc', k4, k5, k6⟩] at g
    injection g
  have e2 : u'.amount = u.amount := by
    rcases h.amount with ⟨g1, g2⟩ | ⟨s, a, g1, g2, g3⟩ <;> rcases h1.amount with ⟨k1, k2⟩ | ⟨s', a', k1, k2, k3⟩
    · rw [g2, k2]
    · exact absurd k1 (g1 _)
    · exact absurd g1 (k1 _)
    · rw [lastEntry_unique k1 g1] at k2
      rw [g3, k3, amountOf_unique g2 k2]
  refine ⟨u'.extras, ?_, ?_⟩
  · rw [h2]
    have e3 := hopt h1.message h.message
    have e4 := hopt h1.label h.label
    have e5 := hopt h1.r h.r
    obtain ⟨a1, a2, a3, a4, a5, a6⟩ := u
    obtain ⟨b1, b2, b3, b4, b5, b6⟩ := u'
    simp only at e1 e2 e3 e4 e5
    subst e1 e2 e3 e4 e5
    rfl
  · refine (List.perm_ext_iff_of_nodup h1.extras.1.of_map h.extras.1.of_map).2 ?_
    rintro ⟨k, v⟩
    rw [h1.extras.2, h.extras.2]

/-- The parts of a text with an upper-case scheme, an escape, a repeated key, a piece without a value and a fragment. -/
example : UriParts "BitCoin:1abc?x=1;x=a%2Bb+c&flag&y=#z".toList "1abc".toList [("x".toList, "1".toList), ("x".toList, "a+b c".toList)] ∧
    LastEntry [("x".toList, "1".toList), ("x".toList, "a+b c".toList)] "x".toList "a+b c".toList := by
  constructor
  · rcases urlparse_cases "BitCoin:1abc?x=1;x=a%2Bb+c&flag&y=#z".toList with ⟨_, _, _, _, _, _, _, h⟩ |
      ⟨s, r, a, tail, path, query, p, h1, h2, h3, h4, h5, h6⟩
    · rw [show urlparse "BitCoin:1abc?x=1;x=a%2Bb+c&flag&y=#z".toList = .ok ⟨"bitcoin".toList, [], "1abc".toList,
        "x=1;x=a%2Bb+c&flag&y=".toList⟩ by decide] at h
      cases h
    · rw [show urlparse "BitCoin:1abc?x=1;x=a%2Bb+c&flag&y=#z".toList = .ok ⟨"bitcoin".toList, [], "1abc".toList,
        "x=1;x=a%2Bb+c&flag&y=".toList⟩ by decide] at h6
      injection h6 with h6
      injection h6 with e1 e2 e3 e4
      subst e1 e2 e3 e4
      exact ⟨_, _, _, _, _, _, _, _, h1, h2, h3, h4, h5, .inr ⟨by decide, rfl⟩, (pieces_iff _ _).1 rfl,
        (items_iff _ _).1 (by decide)⟩
  · exact ⟨[("x".toList, "1".toList)], [], rfl, by simp⟩

/-- One half is read as fifty million satoshis. -/
example : ∃ a, AmountOf " +.5e0".toList a ∧ a.satoshis = 50000000 := by
  rcases amount_cases [("amount".toList, " +.5e0".toList)] with ⟨h, -⟩ | ⟨s, hs, ⟨a, h1, h2, -⟩ | ⟨e, -, h⟩⟩
  · cases h
  · have : s = " +.5e0".toList := by
      rw [show Dict.get? [("amount".toList, " +.5e0".toList)] "amount".toList = some " +.5e0".toList by decide] at hs
      injection hs with hs
      exact hs.symm
    rw [show URI.readAmount [("amount".toList, " +.5e0".toList)] = .ok (some (.int 50000000)) by decide +kernel] at h2
    injection h2 with h2
    injection h2 with h2
    injection h2 with h2
    exact ⟨a, this ▸ h1, h2.symm⟩
  · rw [show URI.readAmount [("amount".toList, " +.5e0".toList)] = .ok (some (.int 50000000)) by decide +kernel] at h
    cases h

/-- A network location with one bracket. -/
example (H : Hashes) : NoUri H "bitcoin://[1".toList .valueError := (C109_refused H _ _).1 rfl

/-- An amount that is too large for a `float`. -/
example : NoAmount "1e400".toList .overflowError :=
  .infinite ((C67_float _ (.inf false)).1 (by decide +kernel))

/-- A URI that is read, with the toy hash functions. -/
example : ∃ address es, ReadsAs Hashes.toy "bitcoin:1pmuWZgV4nJVHaioT79ABVXxCGYGZAxwA?label=a+b&req-x=1".toList address es
    ⟨exampleAddress, none, none, some (.text "a b".toList), none, [("req-x".toList, .text "1".toList)]⟩ :=
  C109_read _ _ _ (by decide +kernel)

end Bitforge
