import Verif.Spec.Uri
import Verif.Props.Uri

/-! # C86: the text of a URI is determined by its contents -/

namespace Bitforge
open Spec Url

/-! ## Order of keys -/

theorem textLt_cons {c : Char} {s t : Text} (h : TextLt s t) : TextLt (c :: s) (c :: t) := by
  rcases h with ⟨d, r, rfl⟩ | ⟨p, a, b, x, y, rfl, rfl, hl⟩
  · exact .inl ⟨d, r, rfl⟩
  · exact .inr ⟨c :: p, a, b, x, y, rfl, rfl, hl⟩

theorem char_toNat_inj {a b : Char} (h : a.toNat = b.toNat) : a = b := Char.toNat_inj.1 h

/-- The model's order. -/
theorem textLe_iff (s t : Text) : textLe s t = true ↔ s = t ∨ TextLt s t := by
  induction s generalizing t with
  | nil =>
    cases t with
    | nil => simp [textLe]
    | cons b t => simp only [textLe, true_iff]; exact .inr (.inl ⟨b, t, rfl⟩)
  | cons a s ih =>
    cases t with
    | nil =>
      simp only [textLe, Bool.false_eq_true, false_iff]
      rintro (h | ⟨d, r, h⟩ | ⟨p, x, y, u, v, -, h, -⟩)
      · cases h
      · simp at h
      · simp at h
    | cons b t =>
      simp only [textLe]
      by_cases hab : a = b
      · rw [if_pos hab, ih]
        subst hab
        constructor
        · rintro (rfl | h)
          · exact .inl rfl
          · exact .inr (textLt_cons h)
        · rintro (h | ⟨d, r, h⟩ | ⟨p, x, y, u, v, h1, h2, hl⟩)
          · injection h with _ h; exact .inl h
          · simp only [List.cons_append, List.cons.injEq, true_and] at h
            exact .inr (.inl ⟨d, r, h⟩)
          · cases p with
            | nil =>
              simp only [List.nil_append, List.cons.injEq] at h1 h2
              rw [← h1.1, ← h2.1] at hl
              exact absurd hl (lt_irrefl _)
            | cons q p =>
              simp only [List.cons_append, List.cons.injEq] at h1 h2
              exact .inr (.inr ⟨p, x, y, u, v, h1.2, h2.2, hl⟩)
      · rw [if_neg hab, decide_eq_true_eq]
        constructor
        · intro hl; exact .inr (.inr ⟨[], a, b, s, t, rfl, rfl, hl⟩)
        · rintro (h | ⟨d, r, h⟩ | ⟨p, x, y, u, v, h1, h2, hl⟩)
          · injection h with h _; exact absurd h hab
          · simp only [List.cons_append, List.cons.injEq] at h
            exact absurd h.1.symm hab
          · cases p with
            | nil =>
              simp only [List.nil_append, List.cons.injEq] at h1 h2
              rw [h1.1, h2.1]; exact hl
            | cons q p =>
              simp only [List.cons_append, List.cons.injEq] at h1 h2
              exact absurd (h1.1.trans h2.1.symm) hab

theorem textLe_total (s t : Text) : textLe s t = true ∨ textLe t s = true := by
  induction s generalizing t with
  | nil => exact .inl (by cases t <;> rfl)
  | cons a s ih =>
    cases t with
    | nil => exact .inr rfl
    | cons b t =>
      simp only [textLe]
      by_cases hab : a = b
      · rw [if_pos hab, if_pos hab.symm]; exact ih t
      · rw [if_neg hab, if_neg (Ne.symm hab), decide_eq_true_eq, decide_eq_true_eq]
        have : a.toNat ≠ b.toNat := fun h => hab (char_toNat_inj h)
        omega

theorem textLe_trans {s t u : Text} (h1 : textLe s t = true) (h2 : textLe t u = true) : textLe s u = true := by
  induction s generalizing t u with
  | nil => cases u <;> rfl
  | cons a s ih =>
    cases t with
    | nil => simp [textLe] at h1
    | cons b t =>
      cases u with
      | nil => simp [textLe] at h2
      | cons c u =>
        simp only [textLe] at h1 h2 ⊢
        by_cases hab : a = b
        · subst hab
          rw [if_pos rfl] at h1
          by_cases hbc : a = c
          · rw [if_pos hbc] at h2 ⊢; exact ih h1 h2
          · rw [if_neg hbc] at h2 ⊢; exact h2
        · rw [if_neg hab, decide_eq_true_eq] at h1
          by_cases hbc : b = c
          · subst hbc; rw [if_neg hab, decide_eq_true_eq]; exact h1
          · rw [if_neg hbc, decide_eq_true_eq] at h2
            rw [if_neg (by rintro rfl; omega), decide_eq_true_eq]; omega

theorem textLt_asymm {s t : Text} (h1 : TextLt s t) (h2 : TextLt t s) : False := by
  have irr : ∀ s, ¬ TextLt s s := by
    intro s
    rintro (⟨d, r, h⟩ | ⟨p, x, y, u, v, h1, h2, hl⟩)
    · have := congrArg List.length h; simp at this
    · rw [h1] at h2
      have := List.append_cancel_left h2
      injection this with h _
      rw [h] at hl; exact lt_irrefl _ hl
  have key : ∀ s t, textLe s t = true → textLe t s = true → s = t := by
    intro s
    induction s with
    | nil => intro t _ h; cases t with
      | nil => rfl
      | cons b t => simp [textLe] at h
    | cons a s ih =>
      intro t h1 h2
      cases t with
      | nil => simp [textLe] at h1
      | cons b t =>
        simp only [textLe] at h1 h2
        by_cases hab : a = b
        · rw [if_pos hab] at h1; rw [if_pos hab.symm] at h2; rw [hab, ih t h1 h2]
        · rw [if_neg hab, decide_eq_true_eq] at h1; rw [if_neg (Ne.symm hab), decide_eq_true_eq] at h2; omega
  have := key s t ((textLe_iff s t).2 (.inr h1)) ((textLe_iff t s).2 (.inr h2))
  subst this
  exact irr _ h1

theorem insertByKey_sorted {α : Type} (e : Text × α) {d : Dict α} (h : d.Pairwise fun a b => textLe a.1 b.1 = true) :
    (insertByKey e d).Pairwise fun a b => textLe a.1 b.1 = true := by
  induction d with
  | nil => simp [insertByKey]
  | cons x d ih =>
    rw [List.pairwise_cons] at h
    unfold insertByKey
    split
    · rename_i hx
      rw [List.pairwise_cons]
      refine ⟨?_, List.pairwise_cons.2 h⟩
      intro y hy
      rcases List.mem_cons.1 hy with rfl | hy
      · exact hx
      · exact textLe_trans hx (h.1 y hy)
    · rename_i hx
      rw [List.pairwise_cons]
      refine ⟨?_, ih h.2⟩
      intro y hy
      rcases List.mem_cons.1 ((insertByKey_perm e d).mem_iff.1 hy) with rfl | hy
      · exact (textLe_total _ _).resolve_left hx
      · exact h.1 y hy

theorem sortByKey_sorted {α : Type} {d : Dict α} (h : Dict.Unique d) :
    (sortByKey d).Pairwise fun a b => TextLt a.1 b.1 := by
  have h1 : (sortByKey d).Pairwise fun a b => textLe a.1 b.1 = true := by
    clear h
    induction d with
    | nil => exact List.Pairwise.nil
    | cons e d ih => exact insertByKey_sorted e ih
  have h2 : (sortByKey d).Pairwise fun a b => a.1 ≠ b.1 := by
    have := sortByKey_unique h
    unfold Dict.Unique List.Nodup at this
    exact List.pairwise_map.1 this
  refine (h1.and h2).imp ?_
  rintro a b ⟨ha, hb⟩
  exact ((textLe_iff _ _).1 ha).resolve_left hb

/-! ## The entries -/

theorem mem_set {α : Type} {d : Dict α} {k k' : Text} {v v' : α} :
    (k, v) ∈ Dict.set d k' v' ↔ (k = k' ∧ v = v') ∨ ((k, v) ∈ d ∧ k ≠ k') := by
  unfold Dict.set
  rw [List.mem_cons, List.mem_filter, Prod.mk.injEq]
  simp

theorem truthy_iff (v : Value) : v.truthy = true ↔ Truthy v := by
  rcases v with t | (n | f) | _ <;> simp [Value.truthy, Truthy]

theorem mem_addMember {q : Dict Value} {key : String} {o : Option Value} {k : Text} {v : Value}
    (hq : ∀ x, (key.toList, x) ∉ q) : (k, v) ∈ URI.addMember q key o ↔ (k = key.toList ∧ o = some v ∧ Truthy v) ∨ (k, v) ∈ q := by
  unfold URI.addMember
  cases o with
  | none => simp
  | some w =>
    simp only
    split
    · rename_i hw
      rw [mem_set]
      constructor
      · rintro (⟨rfl, rfl⟩ | h)
        · exact .inl ⟨rfl, rfl, (truthy_iff _).1 hw⟩
        · exact .inr h.1
      · rintro (⟨rfl, h, -⟩ | h)
        · injection h with h; exact .inl ⟨rfl, h.symm⟩
        · exact .inr ⟨h, by rintro rfl; exact hq _ h⟩
    · rename_i hw
      constructor
      · exact .inr
      · rintro (⟨-, h, ht⟩ | h)
        · injection h with h; subst h; exact absurd ((truthy_iff _).2 ht) hw
        · exact h

theorem mem_addAmount {q : Dict Value} {o : Option BtcUnit} {k : Text} {v : Value}
    (hq : ∀ x, ("amount".toList, x) ∉ q) : (k, v) ∈ URI.addAmount q o ↔
      (k = "amount".toList ∧ ∃ a, o = some a ∧ v = .num (.float a.btc)) ∨ (k, v) ∈ q := by
  unfold URI.addAmount
  cases o with
  | none => simp
  | some a =>
    rw [mem_set]
    constructor
    · rintro (⟨rfl, rfl⟩ | h)
      · exact .inl ⟨rfl, a, rfl, rfl⟩
      · exact .inr h.1
    · rintro (⟨rfl, b, h, rfl⟩ | h)
      · injection h with h; exact .inl ⟨rfl, by rw [h]⟩
      · exact .inr ⟨h, by rintro rfl; exact hq _ h⟩

theorem amount_names : "amount".toList ∈ URI.members ∧ "message".toList ∈ URI.members ∧ "label".toList ∈ URI.members ∧
    "r".toList ∈ URI.members ∧ "message".toList ≠ "amount".toList ∧ "label".toList ≠ "amount".toList ∧
    "r".toList ≠ "amount".toList ∧ "label".toList ≠ "message".toList ∧ "r".toList ≠ "message".toList ∧
    "r".toList ≠ "label".toList := by decide

theorem mem_query {u : URI} (h : ∀ e ∈ u.extras, e.1 ∉ URI.members) (k : Text) (v : Value) :
    (k, v) ∈ u.query ↔ Shown u k v := by
  obtain ⟨n1, n2, n3, n4, n5, n6, n7, n8, n9, n10⟩ := amount_names
  have hx : ∀ key ∈ URI.members, ∀ x, (key, x) ∉ u.extras := fun key hk x hm => h _ hm hk
  have h0 : ∀ k v, (k, v) ∈ URI.addAmount u.extras u.amount ↔
      (k = "amount".toList ∧ ∃ a, u.amount = some a ∧ v = .num (.float a.btc)) ∨ (k, v) ∈ u.extras :=
    fun k v => mem_addAmount (hx _ n1)
  have q0 : ∀ key, key ∈ URI.members → key ≠ "amount".toList → ∀ x, (key, x) ∉ URI.addAmount u.extras u.amount := by
    intro key hk hne x hm
    rcases (h0 _ _).1 hm with ⟨e, -⟩ | hm
    · exact hne e
    · exact hx _ hk x hm
  unfold URI.query
  simp only
  generalize URI.addAmount u.extras u.amount = q at h0 q0
  have h1 : ∀ k v, (k, v) ∈ URI.addMember q "message" u.message ↔
      (k = "message".toList ∧ u.message = some v ∧ Truthy v) ∨ (k, v) ∈ q := fun k v => mem_addMember (q0 _ n2 n5)
  have q1 : ∀ key, key ∈ URI.members → key ≠ "amount".toList → key ≠ "message".toList → ∀ x,
      (key, x) ∉ URI.addMember q "message" u.message := by
    intro key hk hne hne2 x hm
    rcases (h1 _ _).1 hm with ⟨e, -⟩ | hm
    · exact hne2 e
    · exact q0 _ hk hne x hm
  generalize URI.addMember q "message" u.message = q' at h1 q1
  have h2 : ∀ k v, (k, v) ∈ URI.addMember q' "label" u.label ↔
      (k = "label".toList ∧ u.label = some v ∧ Truthy v) ∨ (k, v) ∈ q' := fun k v => mem_addMember (q1 _ n3 n6 n8)
  have q2 : ∀ x, ("r".toList, x) ∉ URI.addMember q' "label" u.label := by
    intro x hm
    rcases (h2 _ _).1 hm with ⟨e, -⟩ | hm
    · exact n10 e
    · exact q1 _ n4 n7 n9 x hm
  generalize URI.addMember q' "label" u.label = q'' at h2 q2
  rw [mem_addMember q2, h2, h1, h0]
  unfold Shown
  constructor
  · rintro (h | h | h | h | h)
    · exact .inr (.inr (.inr (.inl h)))
    · exact .inr (.inr (.inl h))
    · exact .inr (.inl h)
    · exact .inl h
    · exact .inr (.inr (.inr (.inr h)))
  · rintro (h | h | h | h | h)
    · exact .inr (.inr (.inr (.inl h)))
    · exact .inr (.inr (.inl h))
    · exact .inr (.inl h)
    · exact .inl h
    · exact .inr (.inr (.inr (.inr h)))

theorem unique_query {u : URI} (h : Dict.Unique u.extras) : Dict.Unique u.query := by
  have ha : ∀ {q : Dict Value} (key : String) (o : Option Value), Dict.Unique q → Dict.Unique (URI.addMember q key o) := by
    intro q key o hq
    unfold URI.addMember
    cases o with
    | none => exact hq
    | some v =>
      simp only
      split
      · exact Dict.unique_set hq _ _
      · exact hq
  refine ha _ _ (ha _ _ (ha _ _ ?_))
  unfold URI.addAmount
  cases u.amount with
  | none => exact h
  | some a => exact Dict.unique_set h _ _

/-! ## The escapes -/

theorem safe_iff (c : Char) : alwaysSafe c = true ↔ Safe c := by
  unfold alwaysSafe Safe
  simp only [Char.isAlphanum, Char.isAlpha, Char.isUpper, Char.isLower, Char.isDigit, Bool.or_eq_true, decide_eq_true_eq,
    Bool.and_eq_true, Char.toNat, UInt32.le_iff_toNat_le, ge_iff_le]
  have e : ∀ x : Char, x.val.toNat = x.toNat := fun _ => rfl
  norm_num
  tauto

theorem escapedChar_iff {c : Char} (h : c.toNat < 128) (t : Text) : EscapedChar c t ↔ t = quoteChar c := by
  unfold EscapedChar quoteChar
  by_cases hs : alwaysSafe c = true
  · have hs' := (safe_iff c).1 hs
    rw [if_pos hs]
    constructor
    · rintro (⟨-, rfl⟩ | ⟨rfl, -⟩ | ⟨hn, -⟩)
      · rfl
      · exact absurd hs (by decide)
      · exact absurd hs' hn
    · rintro rfl; exact .inl ⟨hs', rfl⟩
  · have hs' : ¬ Safe c := fun h => hs ((safe_iff c).2 h)
    rw [if_neg hs]
    by_cases hc : c = ' '
    · rw [if_pos hc]
      constructor
      · rintro (⟨h, -⟩ | ⟨-, rfl⟩ | ⟨-, hn, -⟩)
        · exact absurd h hs'
        · rfl
        · exact absurd hc hn
      · rintro rfl; exact .inr (.inl ⟨hc, rfl⟩)
    · rw [if_neg hc]
      have hex : ∀ d : Fin 16, hexDigits[d.val]? = some (hexUpper d.val) := by decide
      constructor
      · rintro (⟨h, -⟩ | ⟨h, -⟩ | ⟨-, -, a, b, x, y, hv, hb, hx, hy, rfl⟩)
        · exact absurd h hs'
        · exact absurd h hc
        · have h1 : c.toNat / 16 = a := by omega
          have h2 : c.toNat % 16 = b := by omega
          rw [h1, h2]
          rw [hex ⟨a, by omega⟩] at hx
          rw [hex ⟨b, hb⟩] at hy
          injection hx with hx
          injection hy with hy
          rw [hx, hy]
      · rintro rfl
        exact .inr (.inr ⟨hs', hc, c.toNat / 16, c.toNat % 16, _, _, by omega, by omega,
          hex ⟨c.toNat / 16, by omega⟩, hex ⟨c.toNat % 16, by omega⟩, rfl⟩)

theorem escaped_iff (s t : Text) : Escaped s t ↔ AsciiText s ∧ t = quotePlus s := by
  unfold Escaped
  refine and_congr_right ?_
  intro h
  have hq : quotePlus s = (s.map quoteChar).flatten := by rw [quotePlus, List.flatMap_def]; rfl
  constructor
  · rintro ⟨ts, hf, rfl⟩
    rw [hq]
    congr 1
    clear hq
    induction hf with
    | nil => rfl
    | cons h1 _ ih =>
      rw [List.map_cons, ← (escapedChar_iff (h _ (by simp)) _).1 h1, ← ih fun c hc => h c (by simp [hc])]
  · rintro rfl
    refine ⟨s.map quoteChar, ?_, hq⟩
    rw [List.forall₂_map_right_iff, List.forall₂_same]
    intro c hc
    exact (escapedChar_iff (h c hc) _).2 rfl

theorem asciiText_iff (s t : Text) : asciiText s = .ok t ↔ AsciiText s ∧ t = s := by
  constructor
  · intro h
    have hs : AsciiText s := by
      unfold asciiText at h
      split at h
      · rename_i hs; intro c hc; simpa using (List.all_eq_true.1 hs) c hc
      · cases h
    rw [asciiText_ok hs] at h
    injection h with h
    exact ⟨hs, h.symm⟩
  · rintro ⟨h, rfl⟩; exact asciiText_ok h

/-- The two steps of `urlencode` together. -/
theorem encode_iff (items : List (Text × Value)) (q : Text) :
    (∃ out, URI.strItems items = .ok out ∧ urlencode out = .ok q) ↔
      ∃ parts, List.Forall₂ EntryText items parts ∧ q = List.intercalate ['&'] parts := by
  induction items generalizing q with
  | nil =>
    constructor
    · rintro ⟨out, h1, h2⟩
      injection h1 with h1
      subst h1
      injection h2 with h2
      exact ⟨[], .nil, h2.symm⟩
    · rintro ⟨parts, h, rfl⟩
      cases h
      exact ⟨[], rfl, rfl⟩
  | cons e items ih =>
    obtain ⟨k, v⟩ := e
    constructor
    · rintro ⟨out, h1, h2⟩
      simp only [URI.strItems, bind, Except.bind] at h1
      cases hk : asciiText k with
      | error x => rw [hk] at h1; cases h1
      | ok k1 =>
        rw [hk] at h1
        simp only at h1
        cases hv : v.str with
        | error x => rw [hv] at h1; cases h1
        | ok s =>
          rw [hv] at h1
          simp only at h1
          cases ht : URI.strItems items with
          | error x => rw [ht] at h1; cases h1
          | ok tail =>
            rw [ht] at h1
            injection h1 with h1
            subst h1
            obtain ⟨ha, rfl⟩ := (asciiText_iff _ _).1 hk
            simp only [urlencode, bind, Except.bind, hk] at h2
            cases hs : asciiText s with
            | error x => rw [hs] at h2; cases h2
            | ok s1 =>
              rw [hs] at h2
              obtain ⟨hsa, rfl⟩ := (asciiText_iff _ _).1 hs
              simp only at h2
              cases hu : urlencode tail with
              | error x => rw [hu] at h2; cases h2
              | ok r =>
                rw [hu] at h2
                injection h2 with h2
                obtain ⟨parts, hp, rfl⟩ := (ih r).1 ⟨tail, ht, hu⟩
                refine ⟨(quotePlus k1 ++ '=' :: quotePlus s1) :: parts, .cons ⟨_, _, _, (escaped_iff _ _).2 ⟨ha, rfl⟩, hv,
                  (escaped_iff _ _).2 ⟨hsa, rfl⟩, rfl⟩ hp, ?_⟩
                rw [← h2]
                cases items with
                | nil =>
                  cases hp
                  injection ht with ht
                  subst ht
                  simp [List.intercalate]
                | cons e2 it2 =>
                  cases hp with
                  | cons hp1 hp2 =>
                    have hne : tail ≠ [] := by
                      rintro rfl
                      obtain ⟨k2, v2⟩ := e2
                      simp only [URI.strItems, bind, Except.bind] at ht
                      split at ht
                      · cases ht
                      split at ht
                      · cases ht
                      split at ht
                      · cases ht
                      cases ht
                    rw [if_neg hne]
                    simp [List.intercalate, List.intersperse]
    · rintro ⟨parts, hp, rfl⟩
      cases hp with
      | @cons _ p _ ps hp1 hp2 =>
        obtain ⟨k', s, v', he1, hv, he2, rfl⟩ := hp1
        obtain ⟨ha, rfl⟩ := (escaped_iff _ _).1 he1
        obtain ⟨hsa, rfl⟩ := (escaped_iff _ _).1 he2
        obtain ⟨tail, ht, hu⟩ := (ih _).2 ⟨ps, hp2, rfl⟩
        refine ⟨(k, s) :: tail, ?_, ?_⟩
        · simp only at hv ha
          simp only [URI.strItems, bind, Except.bind, asciiText_ok ha, hv, ht]
          rfl
        · simp only [urlencode, bind, Except.bind, asciiText_ok ha, asciiText_ok hsa, hu, pure, Except.pure]
          congr 1
          cases items with
          | nil =>
            cases hp2
            injection ht with ht
            subst ht
            simp [List.intercalate]
          | cons e2 it2 =>
            cases hp2 with
            | cons hp1 hp2 =>
              have hne : tail ≠ [] := by
                rintro rfl
                obtain ⟨k2, v2⟩ := e2
                simp only [URI.strItems, bind, Except.bind] at ht
                split at ht
                · cases ht
                split at ht
                · cases ht
                split at ht
                · cases ht
                cases ht
              rw [if_neg hne]
              simp [List.intercalate, List.intersperse]

/-! ## The property -/

/-- A `URI` made by the library: extras are not under the names of the attributes, and not two under one name. -/
structure Regular (u : URI) : Prop where
  unique : Dict.Unique u.extras
  names : ∀ e ∈ u.extras, e.1 ∉ URI.members

/-- Sorted lists with the same elements. -/
theorem sorted_unique {α : Type} {a b : List (Text × α)} (ha : a.Pairwise fun x y => TextLt x.1 y.1)
    (hb : b.Pairwise fun x y => TextLt x.1 y.1) (h : ∀ e, e ∈ a ↔ e ∈ b) : a = b := by
  have irr : ∀ s, ¬ TextLt s s := fun s h => textLt_asymm h h
  have nd : ∀ c : List (Text × α), (c.Pairwise fun x y => TextLt x.1 y.1) → c.Nodup := by
    intro c hc
    unfold List.Nodup
    refine hc.imp ?_
    rintro x y hxy rfl
    exact irr _ hxy
  have na := nd a ha
  have nb := nd b hb
  have hp : a.Perm b := (List.perm_ext_iff_of_nodup na nb).2 h
  exact hp.eq_of_pairwise (fun x y _ _ h1 h2 => (textLt_asymm h1 h2).elim) ha hb

theorem entryText_ne {e : Text × Value} {t : Text} (h : EntryText e t) : t ≠ [] := by
  obtain ⟨k, s, v, -, -, -, rfl⟩ := h
  simp

/-- C86. The text of a URI: `bitcoin:`, the address and, if there is anything to show, a question mark and the
entries `key=value`, escaped, separated by ampersands, in increasing order of the keys.  What is shown: the amount
in bitcoins, if there is one, the message, the label and `r` unless empty or zero, and the extras. -/
theorem C86_text (H : Hashes) (u : URI) (h : Regular u) (t : Text) :
    u.toUri H = .ok t ↔ ∃ a, u.address.toString H = .ok a ∧ UriText u a t := by
  have hsort := sortByKey_sorted (unique_query h.unique)
  have hmem : ∀ k v, (k, v) ∈ sortByKey u.query ↔ Shown u k v := fun k v =>
    (sortByKey_perm _).mem_iff.trans (mem_query h.names k v)
  have hempty : ∀ (es : List (Text × Value)) (parts : List Text), List.Forall₂ EntryText es parts →
      (if List.intercalate ['&'] parts ≠ [] then '?' :: List.intercalate ['&'] parts else []) =
        if es = [] then [] else '?' :: List.intercalate ['&'] parts := by
    intro es parts hf
    cases hf with
    | nil => rfl
    | @cons e p es ps h1 h2 =>
      rw [if_neg (by simp : (e :: es : List _) ≠ []), if_pos]
      have := entryText_ne h1
      cases ps with
      | nil => simpa [List.intercalate] using this
      | cons p2 ps => simp [List.intercalate, List.intersperse]
  constructor
  · intro ht
    unfold URI.toUri at ht
    simp only [bind, Except.bind] at ht
    cases h1 : URI.strItems (sortByKey u.query) with
    | error e => rw [h1] at ht; cases ht
    | ok out =>
      rw [h1] at ht
      simp only at ht
      cases h2 : urlencode out with
      | error e => rw [h2] at ht; cases ht
      | ok q =>
        rw [h2] at ht
        simp only at ht
        cases h3 : u.address.toString H with
        | error e => rw [h3] at ht; cases ht
        | ok a =>
          rw [h3] at ht
          injection ht with ht
          obtain ⟨parts, hp, rfl⟩ := (encode_iff _ _).1 ⟨out, h1, h2⟩
          refine ⟨a, rfl, sortByKey u.query, parts, hsort, hmem, hp, ?_⟩
          rw [← ht, hempty _ _ hp]
  · rintro ⟨a, ha, es, parts, hs, hm, hp, rfl⟩
    have : es = sortByKey u.query := sorted_unique hs hsort fun e => by
      obtain ⟨k, v⟩ := e
      rw [hm, hmem]
    subst this
    obtain ⟨out, h1, h2⟩ := (encode_iff _ _).2 ⟨parts, hp, rfl⟩
    unfold URI.toUri
    simp only [bind, Except.bind, h1, h2, ha, pure, Except.pure]
    rw [hempty _ _ hp]

/-- C86: URIs with the same contents have the same text, whatever the order of the dictionary of extras. -/
theorem C86_order (H : Hashes) (u : URI) (h : Regular u) (d : Dict Value) (hd : d.Perm u.extras) :
    URI.toUri H { u with extras := d } = u.toUri H := by
  have h' : Regular { u with extras := d } :=
    ⟨(hd.map Prod.fst).nodup_iff.2 h.unique, fun e he => h.names e (hd.mem_iff.1 he)⟩
  have : sortByKey (URI.query { u with extras := d }) = sortByKey u.query := by
    refine sorted_unique (sortByKey_sorted (unique_query h'.unique)) (sortByKey_sorted (unique_query h.unique)) ?_
    rintro ⟨k, v⟩
    rw [(sortByKey_perm _).mem_iff, (sortByKey_perm _).mem_iff, mem_query h'.names, mem_query h.names]
    unfold Shown
    simp only [hd.mem_iff]
  unfold URI.toUri
  rw [this]

/-- C86: the library makes regular URIs only, from a text or from a dictionary. -/
theorem C86_regular (H : Hashes) (x : UriArg) (hx : ∀ am d, x = .dict am d → Dict.Unique d) (u : URI)
    (h : URI.new H x = .ok u) : Regular u := by
  have hb : ∀ am d, Dict.Unique d → URI.buildFromDict H am d = .ok u → Regular u := by
    intro am d hd hu
    have he : u.extras = d.filter fun e => e.1 ∉ URI.members := by
      unfold URI.buildFromDict at hu
      simp only [bind, Except.bind] at hu
      split at hu
      · cases hu
      split at hu
      · cases hu
      cases am with
      | none =>
        injection hu with hu
        rw [← hu]
      | some n =>
        simp only at hu
        split at hu
        · cases hu
        · injection hu with hu
          rw [← hu]
    refine ⟨?_, ?_⟩
    · rw [he]
      exact List.Nodup.sublist (List.filter_sublist.map _) hd
    · intro e hm
      rw [he, List.mem_filter] at hm
      simpa using hm.2
  cases x with
  | other => cases h
  | dict am d => exact hb am d (hx am d rfl) h
  | text t =>
    unfold URI.new at h
    simp only [bind, Except.bind] at h
    cases hp : URI.parse t with
    | error e => rw [hp] at h; cases h
    | ok args =>
      rw [hp] at h
      simp only at h
      cases ha : URI.readAmount args with
      | error e => rw [ha] at h; cases h
      | ok am =>
        rw [ha] at h
        refine hb (am.map some) _ ?_ h
        have hu : Dict.Unique args := by
          unfold URI.parse at hp
          simp only [bind, Except.bind] at hp
          split at hp
          · cases hp
          · injection hp with hp
            rw [← hp]
            refine Dict.unique_set ?_ _ _
            unfold Dict.ofItems
            have : ∀ (items : List (Text × Text)) (d : Dict Text), Dict.Unique d →
                Dict.Unique (items.foldl (fun d e => Dict.set d e.1 e.2) d) := by
              intro items
              induction items with
              | nil => intro d hd; exact hd
              | cons e items ih => intro d hd; exact ih _ (Dict.unique_set hd _ _)
            exact this _ _ (by simp [Dict.Unique])
        unfold Dict.Unique
        rw [List.map_map]
        exact List.Nodup.sublist (List.filter_sublist.map _) hu

/-- Two extras and a label, given out of order; the empty message is not shown. -/
def shopUri : URI :=
  ⟨⟨List.replicate 20 7, .livenet, .publicKey⟩, none, some (.text []), some (.text "a b".toList), none,
    [("z".toList, .text "1".toList), ("R".toList, .text "é&".toList)]⟩

example : Regular shopUri := ⟨by unfold Dict.Unique; decide, by decide⟩

example : Shown shopUri "label".toList (.text "a b".toList) ∧ ¬ Truthy (.text []) :=
  ⟨.inr (.inr (.inl ⟨rfl, rfl, by simp [Truthy]⟩)), by simp [Truthy]⟩

/-! ## C60: the authority of a URI -/

/-- C60. In `bitcoin://authority…`, where what follows the authority starts with a slash, a question mark or a hash sign,
brackets in the authority must come in both kinds; otherwise `parse` raises `ValueError`.  The address is then the path,
or the authority if the path is empty. -/
theorem C60_authority (auth : Text) (ha : ∀ c ∈ auth, c ≠ '/' ∧ c ≠ '?' ∧ c ≠ '#') (tail : Text)
    (ht : ∀ c r, tail = c :: r → c = '/' ∨ c = '?' ∨ c = '#') :
    ((('[' ∈ auth) ≠ (']' ∈ auth)) → URI.parse ("bitcoin://".toList ++ auth ++ tail) = .error .valueError) ∧
    ((('[' ∈ auth) = (']' ∈ auth)) → ∃ d, URI.parse ("bitcoin://".toList ++ auth ++ tail) = .ok d ∧
      (tail = [] → Dict.get? d "address".toList = some auth) ∧
      ∀ p q, tail = '/' :: p ++ '?' :: q → (∀ c ∈ p, c ≠ '?' ∧ c ≠ '#') →
        Dict.get? d "address".toList = some ('/' :: p)) := by
  have hscheme : splitScheme ("bitcoin://".toList ++ auth ++ tail) = ("bitcoin".toList, "//".toList ++ (auth ++ tail)) := by
    have h1 : partitionAt ':' ("bitcoin://".toList ++ auth ++ tail) = ("bitcoin".toList, some ("//".toList ++ (auth ++ tail))) := by
      have := partitionAt_append (c := ':') (a := "bitcoin".toList) (by decide) ("//".toList ++ (auth ++ tail))
      rw [← this]
      simp
    unfold splitScheme
    rw [h1]
    simp only
    rw [if_neg (by decide), if_neg (by decide), if_pos]
    · rfl
    · refine ⟨by decide, .inr ?_⟩
      rw [List.any_append, show ("//".toList.any fun c => !c.isDigit) = true by decide]
      rfl
  have hnet : splitNetloc ("//".toList ++ (auth ++ tail)) = (auth, tail) := by
    unfold splitNetloc
    simp only
    rw [show ("//".toList ++ (auth ++ tail)).drop 2 = auth ++ tail from rfl]
    have hin : ∀ c ∈ auth, (decide (c ≠ '/') && decide (c ≠ '?') && decide (c ≠ '#')) = true := by
      intro c hc
      obtain ⟨h1, h2, h3⟩ := ha c hc
      simp [h1, h2, h3]
    rw [List.takeWhile_append_of_pos hin, List.dropWhile_append_of_pos hin]
    cases tail with
    | nil => simp
    | cons c r =>
      have : ¬ (decide (c ≠ '/') && decide (c ≠ '?') && decide (c ≠ '#')) = true := by
        rcases ht c r rfl with rfl | rfl | rfl <;> decide
      rw [List.takeWhile_cons_of_neg (p := fun a => decide (a ≠ '/') && decide (a ≠ '?') && decide (a ≠ '#')) this,
        List.dropWhile_cons_of_neg (p := fun a => decide (a ≠ '/') && decide (a ≠ '?') && decide (a ≠ '#')) this,
        List.append_nil]
  have hurl : urlparse ("bitcoin://".toList ++ auth ++ tail) =
      if ('[' ∈ auth ∧ ']' ∉ auth) ∨ (']' ∈ auth ∧ '[' ∉ auth) then .error .valueError
      else .ok ⟨"bitcoin".toList, auth, (partitionAt '?' (partitionAt '#' tail).1).1,
        ((partitionAt '?' (partitionAt '#' tail).1).2).getD []⟩ := by
    unfold urlparse
    simp only [hscheme]
    rw [if_pos (show ("//".toList ++ (auth ++ tail)).take 2 = "//".toList from rfl), hnet]
    simp only
    rw [if_neg (show ¬ String.ofList "bitcoin".toList ∈ usesParams by decide)]
  constructor
  · intro h
    unfold URI.parse
    rw [hurl, if_pos]
    · rfl
    · by_cases h1 : '[' ∈ auth <;> by_cases h2 : ']' ∈ auth <;> simp_all
  · intro h
    unfold URI.parse
    rw [hurl, if_neg (by by_cases h1 : '[' ∈ auth <;> by_cases h2 : ']' ∈ auth <;> simp_all)]
    refine ⟨_, rfl, ?_, ?_⟩
    · rintro rfl
      rw [Dict.get?_set, if_pos rfl]
      rfl
    · rintro p q rfl hp
      rw [Dict.get?_set, if_pos rfl]
      have hhash : ∃ q', (partitionAt '#' ('/' :: p ++ '?' :: q)).1 = '/' :: p ++ '?' :: q' := by
        have : ∀ (a : Text), '#' ∉ a → ∀ b, (partitionAt '#' (a ++ b)).1 = a ++ (partitionAt '#' b).1 := by
          intro a
          induction a with
          | nil => intro _ b; rfl
          | cons x a ih =>
            intro hx b
            rw [List.mem_cons, not_or] at hx
            rw [List.cons_append, partitionAt, if_neg (Ne.symm hx.1)]
            simp only
            rw [ih hx.2]; rfl
        refine ⟨(partitionAt '#' q).1, ?_⟩
        rw [show '/' :: p ++ '?' :: q = ('/' :: p ++ ['?']) ++ q by simp, this _ (by
          simp only [List.cons_append, List.mem_cons, List.mem_append, List.mem_singleton, not_or]
          exact ⟨by decide, fun hm => (hp _ hm).2 rfl, by decide⟩)]
        simp
      obtain ⟨q', hq⟩ := hhash
      rw [hq, partitionAt_append (a := '/' :: p) (by
        rw [List.mem_cons, not_or]
        exact ⟨by decide, fun hm => (hp _ hm).1 rfl⟩) q']
      rfl

example : ∀ c ∈ "[::1".toList, c ≠ '/' ∧ c ≠ '?' ∧ c ≠ '#' := by decide

end Bitforge
