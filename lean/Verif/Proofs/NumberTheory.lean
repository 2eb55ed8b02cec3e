import Verif.NumberTheory
import Mathlib.NumberTheory.LegendreSymbol.Basic
import Mathlib.Tactic.Linarith
import Mathlib.Tactic.Ring
import Mathlib.Data.Int.GCD

namespace Bitforge

/-! ## `inverse_mod` -/

/-- Invariant of the extended Euclidean loop. -/
structure EuclidInv (a : Int) (m : Nat) (c d : Nat) (uc ud : Int) : Prop where
  lt : c < d
  hc : (m : Int) ∣ uc * a - c
  hd : (m : Int) ∣ ud * a - d
  gcd : Nat.gcd c d = Int.gcd a m
  sign : (0 ≤ uc ∧ ud ≤ 0) ∨ (uc ≤ 0 ∧ 0 ≤ ud)
  bound : uc.natAbs * d + ud.natAbs * c = m
  le : ud.natAbs ≤ uc.natAbs

theorem EuclidInv.step {a : Int} {m c d : Nat} {uc ud : Int} (h : EuclidInv a m c d uc ud) (hc0 : c ≠ 0) :
    EuclidInv a m (d % c) c (ud - ((d / c : Nat) : Int) * uc) uc := by
  have hq : d / c * c + d % c = d := by rw [mul_comm]; exact Nat.div_add_mod d c
  set q := d / c with hqdef
  have hq1 : 1 ≤ q := Nat.div_pos h.lt.le (Nat.pos_of_ne_zero hc0)
  have habs : (ud - (q : Int) * uc).natAbs = ud.natAbs + q * uc.natAbs := by
    rcases h.sign with ⟨h1, h2⟩ | ⟨h1, h2⟩
    · have : 0 ≤ (q : Int) * uc := by positivity
      zify
      rw [abs_of_nonpos (by linarith), abs_of_nonpos h2, abs_of_nonneg h1]; ring
    · have : (q : Int) * uc ≤ 0 := mul_nonpos_of_nonneg_of_nonpos (by positivity) h1
      zify
      rw [abs_of_nonneg (by linarith), abs_of_nonneg h2, abs_of_nonpos h1]; ring
  have hmod : ((d % c : Nat) : Int) = d - q * c := by
    have : ((q * c + d % c : Nat) : Int) = d := by rw [hq]
    push_cast at this; push_cast; linarith
  refine ⟨Nat.mod_lt _ (Nat.pos_of_ne_zero hc0), ?_, h.hc, ?_, ?_, ?_, ?_⟩
  · have : (ud - (q : Int) * uc) * a - ((d % c : Nat) : Int) = (ud * a - d) - q * (uc * a - c) := by
      rw [hmod]; ring
    rw [this]
    exact dvd_sub h.hd (Dvd.dvd.mul_left h.hc _)
  · rw [← h.gcd, Nat.gcd_comm, Nat.gcd_comm c d]
    conv_rhs => rw [Nat.gcd_comm, Nat.gcd_rec]
    exact Nat.gcd_comm _ _
  · rcases h.sign with ⟨h1, h2⟩ | ⟨h1, h2⟩
    · have : 0 ≤ (q : Int) * uc := by positivity
      right; exact ⟨by linarith, h1⟩
    · have : (q : Int) * uc ≤ 0 := mul_nonpos_of_nonneg_of_nonpos (by positivity) h1
      left; exact ⟨by linarith, h1⟩
  · rw [habs]
    calc (ud.natAbs + q * uc.natAbs) * c + uc.natAbs * (d % c)
        = uc.natAbs * (q * c + d % c) + ud.natAbs * c := by ring
      _ = m := by rw [hq]; exact h.bound
  · rw [habs]
    nlinarith [Nat.zero_le ud.natAbs, Nat.zero_le uc.natAbs]

theorem inverseModLoop_spec {a : Int} {m : Nat} : ∀ (fuel c d : Nat) (uc vc ud vd : Int), c < fuel →
    EuclidInv a m c d uc ud →
    ∃ d' ud' uc', inverseModLoop fuel c d uc vc ud vd = some (d', ud') ∧ EuclidInv a m 0 d' uc' ud' := by
  intro fuel
  induction fuel with
  | zero => intro c d uc vc ud vd h; omega
  | succ fuel ih =>
    intro c d uc vc ud vd hf h
    unfold inverseModLoop
    by_cases hc : c = 0
    · subst hc; exact ⟨d, ud, uc, by simp, h⟩
    · simp only [hc, if_false]
      have hs := h.step hc
      exact ih _ _ _ _ _ _ (by have := hs.lt; omega) hs

theorem inverseMod_spec (a : Int) (m : Nat) (hm : 0 < m) :
    (Int.gcd a m = 1 → ∃ x, inverseMod a m = .ok x ∧ 1 ≤ x ∧ x ≤ m ∧ (m : Int) ∣ a * x - 1) ∧
    (Int.gcd a m ≠ 1 → inverseMod a m = .error .assertionError) := by
  have hmz : (m : Int) ≠ 0 := by omega
  have h0 : 0 ≤ a % (m : Int) := Int.emod_nonneg _ hmz
  have h1 : a % (m : Int) < m := Int.emod_lt_of_pos _ (by omega)
  have hcast : (((a % (m : Int)).toNat : Nat) : Int) = a % m := Int.toNat_of_nonneg h0
  have init : EuclidInv a m (a % (m : Int)).toNat m 1 0 := by
    refine ⟨by omega, ?_, by simp, ?_, by simp, by simp, by simp⟩
    · rw [hcast, one_mul]; exact Int.dvd_self_sub_emod
    · have : Int.gcd (((a % (m : Int)).toNat : Nat) : Int) (m : Int) = Int.gcd a m := by
        rw [hcast, Int.gcd_emod]
      rw [← this, Int.gcd_natCast_natCast]
  obtain ⟨d, ud, uc, he, hi⟩ := inverseModLoop_spec _ _ _ 1 0 0 1 (Nat.lt_succ_self _) init
  change inverseModLoop ((a % (m : Int)).toNat + 1) _ _ _ _ _ _ = _ at he
  have hg : d = Int.gcd a m := by rw [← hi.gcd]; simp
  unfold inverseMod
  rw [if_neg (by omega)]
  simp only [he]
  constructor
  · intro hone
    have hd1 : d = 1 := by rw [hg, hone]
    subst hd1
    rw [if_pos rfl]
    refine ⟨_, rfl, ?_⟩
    have hb := hi.bound
    have hl := hi.le
    have hdv := hi.hd
    simp only [mul_one, mul_zero, add_zero] at hb
    have hneg : ud ≠ -m ∨ m = 1 := by
      by_contra hcon
      push Not at hcon
      obtain ⟨e, hne⟩ := hcon
      rw [e] at hdv
      have : (m : Int) ∣ 1 := by
        have h2 : (m : Int) ∣ -(m : Int) * a - (-(m : Int) * a - (1 : Nat)) :=
          dvd_sub (Dvd.dvd.mul_right (dvd_neg.2 dvd_rfl) _) hdv
        simpa using h2
      have := Int.le_of_dvd (by norm_num) this
      omega
    have hdv' : (m : Int) ∣ a * ud - 1 := by rw [mul_comm]; simpa using hdv
    by_cases hp : ud > 0
    · rw [if_pos hp]; exact ⟨by omega, by omega, hdv'⟩
    · rw [if_neg hp]
      refine ⟨?_, by omega, ?_⟩
      · rcases hneg with h | h
        · omega
        · have hne : ud ≠ -1 := by
            intro e
            -- for `m = 1` the loop does not run at all
            subst h
            have hz : (a % ((1 : Nat) : Int)).toNat = 0 := by simp
            rw [hz] at he
            simp [inverseModLoop] at he
            omega
          omega
      · have : a * (ud + m) - 1 = (a * ud - 1) + a * m := by ring
        rw [this]; exact dvd_add hdv' (Dvd.intro_left _ rfl)
  · intro hne
    rw [if_neg (by rw [hg]; exact hne)]

/-! ## `pow` -/

theorem powModAux_eq (m : Nat) : ∀ fuel b e, e ≤ fuel → powModAux fuel b e m = b ^ e % m := by
  intro fuel
  induction fuel with
  | zero => intro b e h; have : e = 0 := by omega
            subst this; simp [powModAux]
  | succ fuel ih =>
    intro b e h
    unfold powModAux
    by_cases he : e = 0
    · subst he; simp
    · simp only [he, if_false]
      rw [ih _ _ (by omega), ← Nat.pow_mod, ← pow_two, ← pow_mul]
      have := Nat.div_add_mod e 2
      split
      · next h1 =>
        rw [Nat.mod_mul_mod, ← pow_succ]
        congr 2; omega
      · next h1 => congr 2; omega

theorem powMod_cast (b : Int) (e m : Nat) (hm : 0 < m) : ((powMod b e m : Nat) : ZMod m) = (b : ZMod m) ^ e := by
  unfold powMod
  rw [powModAux_eq m e _ e (Nat.le_refl e)]
  rw [ZMod.natCast_mod, Nat.cast_pow]
  congr 1
  have h0 : 0 ≤ b % (m : Int) := Int.emod_nonneg _ (by omega)
  have : (((b % (m : Int)).toNat : Nat) : ZMod m) = ((((b % (m : Int)).toNat : Nat) : Int) : ZMod m) := by
    rw [Int.cast_natCast]
  rw [this, Int.toNat_of_nonneg h0, ZMod.intCast_mod]

theorem powMod_lt (b : Int) (e m : Nat) (hm : 0 < m) : powMod b e m < m := by
  unfold powMod
  rw [powModAux_eq m e _ e (Nat.le_refl e)]
  exact Nat.mod_lt _ hm

/-! ## `legendre_symbol` -/

section
variable {p : Nat} [Fact p.Prime]

theorem nat_eq_one_iff {t : Nat} (ht : t < p) : t = 1 ↔ ((t : Nat) : ZMod p) = 1 := by
  have hp := (Fact.out : p.Prime).one_lt
  constructor
  · rintro rfl; simp
  · intro h
    have h' : ((t : Nat) : ZMod p) = ((1 : Nat) : ZMod p) := by simpa using h
    rw [ZMod.natCast_eq_natCast_iff'] at h'
    rwa [Nat.mod_eq_of_lt ht, Nat.mod_eq_of_lt hp] at h'

theorem nat_eq_pred_iff {t : Nat} (ht : t < p) : t = p - 1 ↔ ((t : Nat) : ZMod p) = -1 := by
  have hp := (Fact.out : p.Prime).one_lt
  have e : ((p - 1 : Nat) : ZMod p) = -1 := by
    rw [Nat.cast_sub hp.le]; simp
  constructor
  · rintro rfl; exact e
  · intro h
    rw [← e, ZMod.natCast_eq_natCast_iff'] at h
    rwa [Nat.mod_eq_of_lt ht, Nat.mod_eq_of_lt (by omega)] at h

theorem half_eq (hp2 : p ≠ 2) : (p - 1) / 2 = p / 2 := by
  have := (Fact.out : p.Prime).eq_two_or_odd
  omega

theorem legendre_neg_one_iff (hp2 : p ≠ 2) (a : Int) :
    legendreSymbol a p = -1 ↔ ((a : ZMod p)) ^ (p / 2) = -1 := by
  have hp := (Fact.out : p.Prime).pos
  unfold legendreSymbol
  simp only
  rw [half_eq hp2, ← powMod_cast a _ p hp, ← nat_eq_pred_iff (powMod_lt a _ p hp)]
  split
  · next h => simp [h]
  · next h => simp only [h, iff_false]; omega

theorem legendre_one_iff (hp2 : p ≠ 2) (a : Int) :
    legendreSymbol a p = 1 ↔ ((a : ZMod p)) ^ (p / 2) = 1 := by
  have hp := (Fact.out : p.Prime).pos
  have h2 := (Fact.out : p.Prime).two_le
  unfold legendreSymbol
  simp only
  rw [half_eq hp2, ← powMod_cast a _ p hp, ← nat_eq_one_iff (powMod_lt a _ p hp)]
  split
  · next h => rw [h]; simp; omega
  · next h => omega

theorem legendre_one_iff_square (hp2 : p ≠ 2) (a : Int) :
    legendreSymbol a p = 1 ↔ (a : ZMod p) ≠ 0 ∧ IsSquare (a : ZMod p) := by
  rw [legendre_one_iff hp2]
  constructor
  · intro h
    have h0 : (a : ZMod p) ≠ 0 := by
      intro e
      rw [e, zero_pow] at h
      · exact zero_ne_one h
      · have := (Fact.out : p.Prime).two_le; omega
    exact ⟨h0, (ZMod.euler_criterion p h0).2 h⟩
  · rintro ⟨h0, h⟩; exact (ZMod.euler_criterion p h0).1 h

/-! ## Tonelli–Shanks -/

theorem splitTwos_spec : ∀ fuel s e, s ≤ fuel → 0 < s →
    (splitTwos fuel s e).1 % 2 = 1 ∧ e ≤ (splitTwos fuel s e).2 ∧
    (splitTwos fuel s e).1 * 2 ^ ((splitTwos fuel s e).2 - e) = s := by
  intro fuel
  induction fuel with
  | zero => intro s e h h0; omega
  | succ fuel ih =>
    intro s e h h0
    unfold splitTwos
    by_cases hs : s % 2 = 0
    · rw [if_pos hs]
      obtain ⟨h1, h2, h3⟩ := ih (s / 2) (e + 1) (by omega) (by omega)
      refine ⟨h1, by omega, ?_⟩
      set k := (splitTwos fuel (s / 2) (e + 1)).2
      have : k - e = (k - (e + 1)) + 1 := by omega
      rw [this, pow_succ, ← mul_assoc, h3]; omega
    · rw [if_neg hs]
      exact ⟨by show s % 2 = 1; omega, le_refl _, by simp⟩

theorem findNonResidue_spec (hp2 : p ≠ 2) : ∀ fuel n : Nat, (∃ k : Nat, n ≤ k ∧ k < n + fuel ∧ legendreSymbol k p = -1) →
    ∃ m, findNonResidue p fuel n = some m ∧ legendreSymbol m p = -1 := by
  intro fuel
  induction fuel with
  | zero => rintro n ⟨k, h1, h2, _⟩; omega
  | succ fuel ih =>
    rintro n ⟨k, h1, h2, h3⟩
    unfold findNonResidue
    by_cases h : legendreSymbol n p = -1
    · exact ⟨n, by simp [h], h⟩
    · rw [if_neg h]
      refine ih (n + 1) ⟨k, ?_, by omega, h3⟩
      rcases Nat.lt_or_eq_of_le h1 with h' | h'
      · exact h'
      · subst h'; exact absurd h3 h

theorem exists_nonresidue (hp2 : p ≠ 2) : ∃ k : Nat, 2 ≤ k ∧ k < 2 + p ∧ legendreSymbol k p = -1 := by
  have hchar : ringChar (ZMod p) ≠ 2 := by rw [ZMod.ringChar_zmod_n]; exact hp2
  obtain ⟨a, ha⟩ := FiniteField.exists_nonsquare hchar
  have ha0 : a ≠ 0 := by rintro rfl; exact ha (by simp)
  refine ⟨a.val, ?_, by have := ZMod.val_lt a; omega, ?_⟩
  · by_contra h
    have : a.val = 0 ∨ a.val = 1 := by omega
    rcases this with h | h
    · exact ha0 ((ZMod.val_eq_zero a).1 h)
    · apply ha
      have : a = 1 := by
        rw [← ZMod.natCast_zmod_val a, h]; simp
      rw [this]; exact IsSquare.one
  · rw [legendre_neg_one_iff hp2]
    have e : (((a.val : Nat) : Int) : ZMod p) = a := by
      rw [Int.cast_natCast, ZMod.natCast_zmod_val]
    rw [e]
    rcases ZMod.pow_div_two_eq_neg_one_or_one p ha0 with h | h
    · exact absurd ((ZMod.euler_criterion p ha0).2 h) ha
    · exact h

theorem tonelliFor_spec : ∀ rem i m t, t < p → 0 < rem → ((t : Nat) : ZMod p) ^ 2 ^ (rem - 1) = 1 →
    ∃ j, j < rem ∧ tonelliFor p rem i m t = i + j ∧ ((t : Nat) : ZMod p) ^ 2 ^ j = 1 ∧
      (0 < j → ((t : Nat) : ZMod p) ^ 2 ^ (j - 1) = -1) := by
  have hp := (Fact.out : p.Prime).pos
  intro rem
  induction rem with
  | zero => intro i m t _ h; omega
  | succ rem ih =>
    intro i m t ht _ hpow
    unfold tonelliFor
    by_cases h1 : t = 1
    · refine ⟨0, by omega, by simp [h1], by simp [h1], by omega⟩
    · rw [if_neg h1]
      by_cases hr : rem = 0
      · subst hr
        simp at hpow
        exact absurd ((nat_eq_one_iff ht).2 hpow) h1
      · have hc : ((powMod t 2 p : Nat) : ZMod p) = ((t : Nat) : ZMod p) ^ 2 := by
          rw [powMod_cast _ _ _ hp]; simp
        have hpow' : ((powMod t 2 p : Nat) : ZMod p) ^ 2 ^ (rem - 1) = 1 := by
          rw [hc, ← pow_mul, ← pow_succ']
          have : rem - 1 + 1 = rem + 1 - 1 := by omega
          rw [this]; exact hpow
        obtain ⟨j, hj, hf, hj1, hj2⟩ := ih (i + 1) i _ (powMod_lt t 2 p hp) (by omega) hpow'
        refine ⟨j + 1, by omega, by rw [hf]; omega, ?_, ?_⟩
        · rw [hc, ← pow_mul, ← pow_succ'] at hj1; exact hj1
        · intro _
          by_cases hj0 : j = 0
          · subst hj0
            rw [hc] at hj1
            simp only [pow_zero, pow_one] at hj1
            rcases (sq_eq_one_iff.1 hj1) with h | h
            · exact absurd ((nat_eq_one_iff ht).2 h) h1
            · simpa using h
          · have h3 := hj2 (by omega)
            rw [hc, ← pow_mul, ← pow_succ'] at h3
            have : j - 1 + 1 = j + 1 - 1 := by omega
            rw [this] at h3; exact h3

theorem tonelliLoop_spec (a : ZMod p) : ∀ fuel x b g r, r < fuel → 0 < r → x < p → b < p → g < p →
    ((x : Nat) : ZMod p) ^ 2 = a * (b : Nat) → ((g : Nat) : ZMod p) ^ 2 ^ (r - 1) = -1 →
    ((b : Nat) : ZMod p) ^ 2 ^ (r - 1) = 1 →
    ∃ y, tonelliLoop p fuel x b g r = some y ∧ y < p ∧ ((y : Nat) : ZMod p) ^ 2 = a := by
  have hp := (Fact.out : p.Prime).pos
  intro fuel
  induction fuel with
  | zero => intro x b g r h; omega
  | succ fuel ih =>
    intro x b g r hf hr hx hb hg hxx hgg hbb
    obtain ⟨m, hm, he, hm1, hm2⟩ := tonelliFor_spec r 0 0 b hb hr hbb
    unfold tonelliLoop
    simp only [Nat.zero_add] at he
    simp only [he]
    by_cases h0 : m = 0
    · subst h0
      rw [if_pos rfl]
      refine ⟨x, rfl, hx, ?_⟩
      simp only [pow_zero, pow_one] at hm1
      rw [hxx, hm1, mul_one]
    · rw [if_neg h0]
      have hgs : ((powMod g (2 ^ (r - m - 1)) p : Nat) : ZMod p) = ((g : Nat) : ZMod p) ^ 2 ^ (r - m - 1) := by
        rw [powMod_cast _ _ _ hp]; simp
      set gs := powMod g (2 ^ (r - m - 1)) p
      have hg' : ((gs * gs % p : Nat) : ZMod p) = ((g : Nat) : ZMod p) ^ 2 ^ (r - m) := by
        rw [ZMod.natCast_mod, Nat.cast_mul, hgs, ← pow_two, ← pow_mul, ← pow_succ]
        congr 2; omega
      have hgm : ((gs * gs % p : Nat) : ZMod p) ^ 2 ^ (m - 1) = -1 := by
        rw [hg', ← pow_mul, ← pow_add]
        have : r - m + (m - 1) = r - 1 := by omega
        rw [this]; exact hgg
      refine ih _ _ _ m (by omega) (by omega) (Nat.mod_lt _ hp) (Nat.mod_lt _ hp) (Nat.mod_lt _ hp) ?_ hgm ?_
      · have e1 : ((x * gs % p : Nat) : ZMod p) = (x : Nat) * (gs : Nat) := by
          rw [ZMod.natCast_mod, Nat.cast_mul]
        have e2 : ((b * (gs * gs % p) % p : Nat) : ZMod p) = (b : Nat) * ((gs : Nat) * (gs : Nat)) := by
          rw [ZMod.natCast_mod, Nat.cast_mul, ZMod.natCast_mod, Nat.cast_mul]
        rw [e1, e2, mul_pow, hxx]; ring
      · rw [ZMod.natCast_mod, Nat.cast_mul, mul_pow, hgm, hm2 (by omega)]; ring

theorem modularSqrt_square (hp2 : p ≠ 2) (a : Int) (h0 : (a : ZMod p) ≠ 0) (hs : IsSquare (a : ZMod p)) :
    ∃ x, modularSqrt a p = .ok x ∧ x < p ∧ ((x : Nat) : ZMod p) ^ 2 = (a : ZMod p) := by
  have hp := (Fact.out : p.Prime).pos
  have hodd := (Fact.out : p.Prime).eq_two_or_odd
  have hl : legendreSymbol a p = 1 := (legendre_one_iff_square hp2 a).2 ⟨h0, hs⟩
  have heuler : (a : ZMod p) ^ (p / 2) = 1 := (legendre_one_iff hp2 a).1 hl
  unfold modularSqrt
  rw [if_neg (by simp [hl]), if_neg (by rintro rfl; simp at h0), if_neg hp2]
  by_cases h4 : p % 4 = 3
  · rw [if_pos h4]
    refine ⟨_, rfl, powMod_lt _ _ _ hp, ?_⟩
    rw [powMod_cast _ _ _ hp, ← pow_mul]
    have : (p + 1) / 4 * 2 = p / 2 + 1 := by omega
    rw [this, pow_succ, heuler, one_mul]
  · rw [if_neg h4]
    obtain ⟨h1, h2, h3⟩ := splitTwos_spec p (p - 1) 0 (by omega) (by have := (Fact.out : p.Prime).two_le; omega)
    set se := splitTwos p (p - 1) 0
    obtain ⟨s, e⟩ := se
    simp only [Nat.sub_zero] at h1 h2 h3 ⊢
    obtain ⟨n, hn, hnl⟩ := findNonResidue_spec hp2 p 2 (exists_nonresidue hp2)
    rw [hn]
    simp only
    have he0 : 0 < e := by
      rcases Nat.eq_zero_or_pos e with h | h
      · subst h; omega
      · exact h
    have hhalf : s * 2 ^ (e - 1) = p / 2 := by
      have : s * 2 ^ e = s * 2 ^ (e - 1) * 2 := by
        rw [mul_assoc, ← pow_succ]; congr 2; omega
      omega
    have hneul := (legendre_neg_one_iff hp2 (n : Int)).1 hnl
    obtain ⟨y, hy, hyl, hyy⟩ := tonelliLoop_spec (p := p) (a : ZMod p) (e + 1) (powMod a ((s + 1) / 2) p)
      (powMod a s p) (powMod n s p) e (by omega) he0 (powMod_lt _ _ _ hp) (powMod_lt _ _ _ hp)
      (powMod_lt _ _ _ hp)
      (by
        rw [powMod_cast _ _ _ hp, powMod_cast _ _ _ hp, ← pow_mul, ← pow_succ']
        congr 1; omega)
      (by rw [powMod_cast _ _ _ hp, ← pow_mul, hhalf]; exact hneul)
      (by rw [powMod_cast _ _ _ hp, ← pow_mul, hhalf]; exact heuler)
    rw [hy]
    exact ⟨y, rfl, hyl, hyy⟩

theorem modularSqrt_nonsquare (hp2 : p ≠ 2) (a : Int) (h : (a : ZMod p) = 0 ∨ ¬ IsSquare (a : ZMod p)) :
    modularSqrt a p = .ok 0 := by
  have : legendreSymbol a p ≠ 1 := by
    intro hl
    obtain ⟨h1, h2⟩ := (legendre_one_iff_square hp2 a).1 hl
    tauto
  unfold modularSqrt
  rw [if_pos this]

end

end Bitforge
