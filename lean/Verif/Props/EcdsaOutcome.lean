import Verif.Props.Ecdsa
import Verif.Props.CodecOutcome
import Verif.Proofs.Unreduced

/-! # Property C128: what ECDSA over secp256k1 answers in every case

One inductive relation for each function of `ecdsa.py`, over Mathlib's group of the curve.  All numbers are arbitrary
integers: the code accepts any representative of an abscissa modulo `p`, but compares abscissas as integers, so a point
given with a representative out of `[0, p)` fails where it meets itself. -/

namespace Bitforge.Ecdsas
open Spec Unreduced

/-- Both components of a signature lie in `[1, n-1]`. -/
def InRange (r s : Int) : Prop := (1 ≤ r ∧ r < secpN) ∧ 1 ≤ s ∧ s < secpN

/-! ## The relations -/

/-- The public pair of a secret exponent: none for multiples of the order, else the coordinates of `d·G`. -/
inductive PairOf (d : Int) : Except Err (Option (Int × Int)) → Prop
  | infinity : d • G = 0 → PairOf d (.ok none)
  | point {x y} : reduced x → reduced y → IsPoint x y (d • G) → PairOf d (.ok (some (x, y)))

/-- The point of given abscissa and parity; without such a point `y` is 0 or `p`. -/
inductive PointAt (x : Int) (even : Bool) : Except Err (Int × Int) → Prop
  | point {y} : OnSecp x y → reduced y → y % 2 = (if even then 0 else 1) → PointAt x even (.ok (x, y))
  | nowhere : (∀ y, ¬ OnSecp x y) → PointAt x even (.ok (x, if even then 0 else 2 ^ 256 - 2 ^ 32 - 977))

/-- Signing: the nonce search may never end; otherwise the signature is `(x(k·G), (z + d·r)/k)`, refused when `s` is zero. -/
inductive Signed (H : Hashes) (fuel : Nat) (d z : Int) : Except Err (Int × Int) → Prop
  | loops : Ecdsa.generateK H fuel secpN d z = .error .diverges → Signed H fuel d z (.error .diverges)
  | zero {k : Nat} {r : Int} : Ecdsa.generateK H fuel secpN d z = .ok k → HasX (k • G) r → (z + d * r) % secpN = 0 →
      Signed H fuel d z (.error .runtimeError)
  | made {k : Nat} {r s : Int} : Ecdsa.generateK H fuel secpN d z = .ok k → HasX (k • G) r → 1 ≤ s → s < secpN →
      (s * k) % secpN = (z + d * r) % secpN → Signed H fuel d z (.ok (r, s))

/-- The cases where verification does not depend on the representative of the abscissa of the key `Q`. -/
def Usual (qx z r s : Int) (Q : SecpGroup) : Prop :=
  reduced qx ∨ ((r + 2 * s) % secpN ≠ 0 ∧ (r = s → z • G ≠ 0 ∧ z • G ≠ r • Q ∧ z • G ≠ -(r • Q)))

/-- Verification by the pair `(qx, qy)`. -/
inductive Verified (qx qy z r s : Int) : Except Err Bool → Prop
  | range : ¬ InRange r s → Verified qx qy z r s (.ok false)
  | outside : InRange r s → ¬ OnSecp qx qy → Verified qx qy z r s (.error .noSuchPointError)
  | infinity {Q} : InRange r s → IsPoint qx qy Q → Usual qx z r s Q → z • G + r • Q = 0 →
      Verified qx qy z r s (.error .typeError)
  | good {Q} : IsPoint qx qy Q → Usual qx z r s Q → ValidSig Q z r s → Verified qx qy z r s (.ok true)
  | bad {Q} : InRange r s → IsPoint qx qy Q → Usual qx z r s Q → z • G + r • Q ≠ 0 → ¬ ValidSig Q z r s →
      Verified qx qy z r s (.ok false)
  | minusTwo {Q} : InRange r s → IsPoint qx qy Q → ¬ reduced qx → (r + 2 * s) % secpN = 0 →
      Verified qx qy z r s (.error .assertionError)
  | meets {Q} : InRange r s → IsPoint qx qy Q → ¬ reduced qx → r = s → (z • G = r • Q ∨ z • G = -(r • Q)) →
      Verified qx qy z r s (.error .assertionError)
  | alone {Q} : InRange r s → IsPoint qx qy Q → ¬ reduced qx → r = s → z • G = 0 →
      Verified qx qy z r s (.ok (decide (qx % secpN = r)))

/-- `Q` is a key that signs with a nonce point `T` of abscissa `r`: `r·Q = s·T - z·G`. -/
def Signer (z r s : Int) (Q : SecpGroup) : Prop := ∃ T, HasX T r ∧ r • Q = s • T - z • G

/-- Recovery meets the nonce point `T` itself, given with a representative of its abscissa out of `[0, p)`. -/
def Meets (z r s : Int) (T : SecpGroup) : Prop :=
  (s + 2) % secpN = 0 ∨ s % secpN = 1 ∧ (z • G = T ∨ z • G = -T ∨ z • G = 0 ∧ (2 * r + 1) % secpN = 0)

/-- The keys recovered from a signature. -/
inductive Recovered (z r s : Int) : Except Err (Finset (Int × Int)) → Prop
  | zero : r % secpN = 0 → Recovered z r s (.error .assertionError)
  | nowhere : r % secpN ≠ 0 → (∀ y, ¬ OnSecp r y) → Recovered z r s (.error .noSuchPointError)
  | meets {y T} : r % secpN ≠ 0 → IsPoint r y T → ¬ reduced r → Meets z r s T → Recovered z r s (.error .assertionError)
  | range {y T} : r % secpN ≠ 0 → IsPoint r y T → ¬ InRange r s → (reduced r ∨ ¬ Meets z r s T) → Recovered z r s (.ok ∅)
  | infinity : InRange r s → Signer z r s 0 → Recovered z r s (.error .typeError)
  | found {T F} : InRange r s → HasX T r → ¬ Signer z r s 0 →
      (∀ a b, (a, b) ∈ F ↔ reduced a ∧ reduced b ∧ ∃ Q, IsPoint a b Q ∧ Signer z r s Q) → Recovered z r s (.ok F)

/-! ## Points -/

theorem isPoint_onSecp {x y : Int} : OnSecp x y ↔ ∃ T, IsPoint x y T := by
  rw [onSecp_iff, containsPoint_iff_nonsingular secp_regular]
  exact ⟨fun h => ⟨_, h, rfl⟩, fun ⟨_, h, _⟩ => h⟩

theorem isPoint_det {x y : Int} {T T' : SecpGroup} (h : IsPoint x y T) (h' : IsPoint x y T') : T = T' := by
  obtain ⟨_, rfl⟩ := h
  obtain ⟨_, rfl⟩ := h'
  rfl

theorem hasX_unique {T : SecpGroup} {x x' : Int} (h : HasX T x) (h' : HasX T x') : x = x' := by
  obtain ⟨h1, y, h2⟩ := h
  obtain ⟨h1', y', h2'⟩ := h'
  exact isPoint_x_unique h2 h2' h1 h1'

theorem hasX_G : HasX G secpGx := ⟨by unfold reduced; decide, secpGy, denotes_isPoint (denotes_G none)⟩

/-- No point of the curve has `x = 0`. -/
theorem x_ne_zero {T : SecpGroup} {x : Int} (h : HasX T x) : x ≠ 0 := by
  rintro rfl
  obtain ⟨hx, y, hy⟩ := h
  rcases sqrt_alpha 0 hx with ⟨b, S, hb, -, rb', -, -⟩ | ⟨hno, -⟩
  · have e : modularSqrt (((powMod 0 3 secp.p : Int) + secp.a * 0 + secp.b) % (secp.p : Int)) secp.p = .ok 0 := by
      decide +kernel
    rw [e] at hb
    cases hb
    have := ((reduced_iff _).1 rb').2
    simp at this
  · obtain ⟨hn, _⟩ := hy
    exact hno y ((containsPoint_iff_nonsingular secp_regular _ _).2 hn)

theorem zsmul_eq_zero {a : Int} {Q : SecpGroup} : a • Q = 0 ↔ a % (secpN : Int) = 0 ∨ Q = 0 := by
  by_cases hQ : Q = 0
  · rw [hQ, zsmul_zero]; simp
  · rw [← addOrderOf_dvd_iff_zsmul_eq_zero, addOrderOf_secp hQ, Int.dvd_iff_emod_eq_zero]
    simp [hQ]

/-- A point of order `n` times any integer. -/
theorem nice_mul_any {P : Point} {Q : SecpGroup} (hP : Nice P Q) (ho : P.order = some secpN) (e : Int) :
    ∃ R, Point.mul secp P e = .ok R ∧ Nice R (e • Q) := by
  have hN := secpN_pos
  have he : effective P e = e % (secpN : Int) := by unfold effective; rw [ho]; rfl
  have h0 : 0 ≤ e % (secpN : Int) := Int.emod_nonneg _ (by omega)
  have h1 : e % (secpN : Int) < secpN := Int.emod_lt_of_pos _ hN
  obtain ⟨R, hR, hD⟩ := secp_mul hP.denotes e (by omega)
  rw [he, ← natCast_zsmul, Int.toNat_of_nonneg h0, zsmul_mod] at hD
  exact ⟨R, hR, hD, secp_mul_reduced hP.denotes hP.red e (by omega) (by omega) hR, mul_order hP.order hR⟩

/-! ## Public pairs -/

/-- C128. The public pair of every secret exponent. -/
theorem C128_public (d : Int) (o : Except Err (Option (Int × Int))) :
    Ecdsa.publicPairForSecretExponent secp secpG d = o ↔ PairOf d o := by
  refine graph (f := Ecdsa.publicPairForSecretExponent secp secpG) (R := PairOf) ?_ ?_ d o
  · intro d o h
    obtain ⟨R, hR, nR⟩ := nice_mul_any nice_G rfl d
    unfold Ecdsa.publicPairForSecretExponent
    simp only [hR, bind, Except.bind]
    rcases nice_cases nR with ⟨rfl, h0⟩ | ⟨x, y, o, rfl, hx, hy, hp⟩
    · cases h with
      | infinity => rfl
      | point _ _ h => exact absurd h0 (isPoint_ne_zero h)
    · cases h with
      | infinity h => exact absurd h (isPoint_ne_zero hp)
      | point rx ry h => rw [isPoint_x_unique h hp rx hx, isPoint_y_unique h hp ry hy]; rfl
  · intro d
    obtain ⟨R, -, nR⟩ := nice_mul_any nice_G rfl d
    rcases nice_cases nR with ⟨rfl, h0⟩ | ⟨x, y, o, rfl, hx, hy, hp⟩
    · exact ⟨_, .infinity h0⟩
    · exact ⟨_, .point hx hy hp⟩

example : PairOf (-1) (.ok (some (secpGx, secp.p - secpGy))) := (C128_public _ _).1 (by decide +kernel)
example : PairOf (2 * secpN) (.ok none) := (C128_public _ _).1 (by decide +kernel)

/-- C128. The point of every abscissa and parity. -/
theorem C128_abscissa (x : Int) (even : Bool) (o : Except Err (Int × Int)) :
    Ecdsa.publicPairForX secp x even = o ↔ PointAt x even o := by
  refine graph (f := Ecdsa.publicPairForX secp x) (R := PointAt x) ?_ ?_ even o
  · intro even o h
    cases h with
    | @point y h hy hpar =>
      obtain ⟨y', hy', -, -, h1, h2⟩ := publicPairForX_spec x even
      have hon := h2 y ((onSecp_iff _ _).1 h)
      obtain ⟨p1, p2, p3⟩ := h1 hon
      rw [hy', y_unique hon ((onSecp_iff _ _).1 h) ⟨by omega, p2⟩ ((reduced_iff y).1 hy) (by rw [p3, hpar])]
    | nowhere h => exact Codecs.noRoot h even
  · intro even
    by_cases h : ∃ y, OnSecp x y
    · obtain ⟨y, hy⟩ := h
      obtain ⟨y', -, -, -, h1, h2⟩ := publicPairForX_spec x even
      have hon := h2 y ((onSecp_iff _ _).1 hy)
      obtain ⟨p1, p2, p3⟩ := h1 hon
      exact ⟨_, .point ((onSecp_iff _ _).2 hon) ((reduced_iff _).2 ⟨by omega, p2⟩) p3⟩
    · exact ⟨_, .nowhere (not_exists.1 h)⟩

example : PointAt secpGx true (.ok (secpGx, secpGy)) := (C128_abscissa _ _ _).1 (by decide +kernel)
example : PointAt 5 false (.ok (5, 2 ^ 256 - 2 ^ 32 - 977)) := (C128_abscissa _ _ _).1 (by decide +kernel)
example : PointAt (-1) true (Ecdsa.publicPairForX secp (-1) true) := (C128_abscissa _ _ _).1 rfl

/-- C128. A pair is valid exactly if it satisfies the equation modulo `p`. -/
theorem C128_valid (x y : Int) : Ecdsa.isPublicPairValid secp (x, y) = true ↔ OnSecp x y := (onSecp_iff x y).symm

example : Ecdsa.isPublicPairValid secp (secpGx + secp.p, secpGy) = true := by decide +kernel

/-! ## Signing -/

theorem generateK_error {H : Hashes} {fuel : Nat} {d z : Int} {e : Err} (h : Ecdsa.generateK H fuel secpN d z = .error e) :
    e = .diverges := by
  have hdiv : ∀ fuel k v e, Ecdsa.kLoop H secpN ((bitLength secpN + 7) / 8) fuel k v = .error e → e = .diverges := by
    intro fuel
    induction fuel with
    | zero => intro k v e h; cases h; rfl
    | succ fuel ih =>
      intro k v e h
      unfold Ecdsa.kLoop at h
      simp only at h
      split at h
      · cases h
      · exact ih _ _ _ h
  exact hdiv _ _ _ _ h

theorem signs {H : Hashes} {fuel : Nat} {d z : Int} {k : Nat} (h : Ecdsa.generateK H fuel secpN d z = .ok k) :
    Ecdsa.sign H fuel secp secpG d z = Ecdsa.signWith secp secpG secpN d z k := by
  unfold Ecdsa.sign
  simp only [show secpG.order = some secpN from rfl, h, bind, Except.bind]

theorem inv_mul_zero {k w a : Int} (hw : (k * w) % (secpN : Int) = 1) :
    (w * a) % (secpN : Int) = 0 ↔ a % (secpN : Int) = 0 := by
  constructor
  · intro h
    have : (k * (w * a)) % (secpN : Int) = 0 := by rw [Int.mul_emod, h]; simp
    rwa [← mul_assoc, Int.mul_emod, hw, one_mul, Int.emod_emod_of_dvd _ dvd_rfl] at this
  · intro h
    rw [Int.mul_emod, h]; simp

theorem add_mod_inner (z a : Int) : (z + a % (secpN : Int)) % (secpN : Int) = (z + a) % (secpN : Int) := by
  rw [Int.add_emod, Int.emod_emod_of_dvd _ dvd_rfl, ← Int.add_emod]

theorem mul_mod_inner (w a b : Int) (h : a % (secpN : Int) = b % (secpN : Int)) :
    (w * a) % (secpN : Int) = (w * b) % (secpN : Int) := by
  rw [Int.mul_emod, h, ← Int.mul_emod]

/-- C128. Signing with every secret exponent and every value. -/
theorem C128_sign (H : Hashes) (fuel : Nat) (d z : Int) (o : Except Err (Int × Int)) :
    Ecdsa.sign H fuel secp secpG d z = o ↔ Signed H fuel d z o := by
  have hN := secpN_pos
  refine graph (f := Ecdsa.sign H fuel secp secpG d) (R := Signed H fuel d) ?_ ?_ z o
  · intro z o h
    cases h with
    | loops h =>
      unfold Ecdsa.sign
      simp only [show secpG.order = some secpN from rfl, h, bind, Except.bind]
    | @zero k r hk hx hz =>
      have hr := kLoop_range _ _ _ _ _ _ _ hk
      obtain ⟨r', y, w, rr, ry, hp, hkw, he⟩ := signWith_eq d z k hr.1 hr.2
      have : r = r' := hasX_unique hx ⟨rr, y, hp⟩
      subst this
      rw [signs hk, he, if_neg (x_ne_zero hx), if_pos]
      rw [inv_mul_zero hkw, add_mod_inner, hz]
    | @made k r s hk hx h1 h2 hs =>
      have hr := kLoop_range _ _ _ _ _ _ _ hk
      obtain ⟨r', y, w, rr, ry, hp, hkw, he⟩ := signWith_eq d z k hr.1 hr.2
      have : r = r' := hasX_unique hx ⟨rr, y, hp⟩
      subst this
      have e : (w * (z + (d * r) % (secpN : Int))) % (secpN : Int) = s := by
        rw [mul_mod_inner w _ _ (add_mod_inner z (d * r)), mul_mod_inner w _ _ hs.symm]
        have : w * (s * k) = s * (k * w) := by ring
        rw [this, Int.mul_emod, hkw, mul_one, Int.emod_emod_of_dvd _ dvd_rfl, Int.emod_eq_of_lt (by omega) h2]
      rw [signs hk, he, if_neg (x_ne_zero hx), e, if_neg (by omega)]
  · intro z
    cases hk : Ecdsa.generateK H fuel secpN d z with
    | error e => rw [generateK_error hk] at hk; exact ⟨_, .loops hk⟩
    | ok k =>
      have hr := kLoop_range _ _ _ _ _ _ _ hk
      obtain ⟨r, y, w, rr, ry, hp, hkw, he⟩ := signWith_eq d z k hr.1 hr.2
      by_cases hz : (z + d * r) % (secpN : Int) = 0
      · exact ⟨_, .zero hk ⟨rr, y, hp⟩ hz⟩
      · have h0 : (w * (z + (d * r) % (secpN : Int))) % (secpN : Int) ≠ 0 := by
          rw [Ne, inv_mul_zero hkw, add_mod_inner]; exact hz
        rw [if_neg (x_ne_zero ⟨rr, y, hp⟩), if_neg h0] at he
        obtain ⟨-, -, -, g1, g2, g3⟩ := signWith_ok hr.1 hr.2 he
        exact ⟨_, .made hk ⟨rr, y, hp⟩ g1 (by omega) g3⟩

example : Signed (constHash 1) 1 2 5 (.ok (secpGx, 5 + 2 * secpGx)) ∧ Signed (constHash 1) 1 1 (-secpGx) (.error .runtimeError) :=
  ⟨.made (generateK_const 1 (by decide) (by decide) 0 2 5) (by rw [one_nsmul]; exact hasX_G) (by decide) (by decide) (by decide),
   .zero (generateK_const 1 (by decide) (by decide) 0 1 _) (by rw [one_nsmul]; exact hasX_G) (by decide)⟩

/-! ## Verification -/

theorem inRange_iff {r s : Int} : InRange r s ↔ 1 ≤ r ∧ r ≤ secpN - 1 ∧ 1 ≤ s ∧ s ≤ secpN - 1 := by
  unfold InRange; omega

theorem verify_outside {qx qy z r s : Int} (hr : InRange r s) (h : ¬ OnSecp qx qy) :
    Ecdsa.verify secp secpG (qx, qy) z (r, s) = .error .noSuchPointError := by
  have hN := secpN_pos
  obtain ⟨⟨h1, h2⟩, h3, h4⟩ := hr
  obtain ⟨w, hw, -, -, -⟩ := inverseMod_secpN (a := s) (by rw [Int.emod_eq_of_lt (by omega) (by omega)]; omega)
  obtain ⟨P1, hP1, -⟩ := nice_mul_any nice_G rfl ((z * w) % (secpN : Int))
  have hm : Point.make secp qx qy (some secpN) = .error .noSuchPointError := by
    unfold Point.make
    rw [if_neg]
    intro hc
    exact h ((onSecp_iff _ _).2 hc)
  unfold Ecdsa.verify
  simp only [show secpG.order = some secpN from rfl]
  rw [if_neg (by omega), if_neg (by omega)]
  simp only [hw, hP1, hm, bind, Except.bind]

/-- The sum computed is zero exactly if `z·G + r·Q` is. -/
theorem sum_zero {z r s w : Int} {Q : SecpGroup} (hw : (s * w) % (secpN : Int) = 1) :
    (z * w) • G + (r * w) • Q = 0 ↔ z • G + r • Q = 0 := by
  have e : (z * w) • G + (r * w) • Q = w • (z • G + r • Q) := by
    rw [zsmul_add, ← mul_zsmul', ← mul_zsmul']
  rw [e, zsmul_eq_zero, or_iff_right]
  intro h
  have : (s * w) % (secpN : Int) = 0 := by rw [Int.mul_emod, h]; simp
  omega

/-- `w·X = Y` exactly if `X = s·Y`, for `w` the inverse of `s`. -/
theorem inv_smul {s w : Int} (hw : (s * w) % (secpN : Int) = 1) (X Y : SecpGroup) : w • X = Y ↔ X = s • Y := by
  have e1 : s • (w • X) = X := by
    rw [← mul_zsmul', mul_comm, zsmul_congr (b := 1) (by rw [hw]; decide), one_zsmul]
  have e2 : w • (s • Y) = Y := by
    rw [← mul_zsmul', zsmul_congr (b := 1) (by rw [hw]; decide), one_zsmul]
  constructor
  · rintro rfl; exact e1.symm
  · rintro rfl; exact e2

/-- Verification by a pair whose abscissa is out of `[0, p)`. -/
theorem verify_unreduced {qx qy z r s : Int} {Q : SecpGroup} (hr : InRange r s) (hQ : IsPoint qx qy Q) (hx : ¬ reduced qx) :
    ((r + 2 * s) % secpN = 0 → Ecdsa.verify secp secpG (qx, qy) z (r, s) = .error .assertionError) ∧
    (r = s → z • G = 0 → Ecdsa.verify secp secpG (qx, qy) z (r, s) = .ok (decide (qx % secpN = r))) ∧
    (r = s → (z • G = r • Q ∨ z • G = -(r • Q)) → Ecdsa.verify secp secpG (qx, qy) z (r, s) = .error .assertionError) ∧
    (Usual qx z r s Q → Ecdsa.verify secp secpG (qx, qy) z (r, s) = Ecdsa.verify secp secpG (red qx, qy) z (r, s)) := by
  have hN := secpN_pos
  have hbig : (1000 : Int) < secpN := by decide
  obtain ⟨⟨h1, h2⟩, h3, h4⟩ := hr
  obtain ⟨w, hw, -, -, hsw⟩ := inverseMod_secpN (a := s) (by rw [Int.emod_eq_of_lt (by omega) (by omega)]; omega)
  obtain ⟨P1, hP1, n1⟩ := nice_mul_any nice_G rfl ((z * w) % (secpN : Int))
  rw [zsmul_mod, mul_zsmul'] at n1
  have one_iff : (r * w) % (secpN : Int) % (secpN : Int) = 1 ↔ r = s := by
    rw [Int.emod_emod_of_dvd _ dvd_rfl]
    constructor
    · intro h
      have e : (w * (r - s)) % (secpN : Int) = 0 := by
        have : w * (r - s) = r * w - s * w := by ring
        rw [this, Int.sub_emod, h, hsw]; rfl
      rw [inv_mul_zero hsw] at e
      have := Int.emod_eq_emod_iff_emod_sub_eq_zero.2 e
      rwa [Int.emod_eq_of_lt (by omega) h2, Int.emod_eq_of_lt (by omega) h4] at this
    · rintro rfl; exact hsw
  have two_iff : ((r * w) % (secpN : Int) + 2) % (secpN : Int) = 0 ↔ (r + 2 * s) % (secpN : Int) = 0 := by
    rw [← inv_mul_zero (a := r + 2 * s) hsw]
    have e : w * (r + 2 * s) = r * w + 2 * (s * w) := by ring
    rw [e, Int.add_emod, Int.emod_emod_of_dvd _ dvd_rfl, Int.add_emod (r * w), Int.mul_emod 2 (s * w), hsw]
    rfl
  have hv : ∀ q, IsPoint q qy Q → Ecdsa.verify secp secpG (q, qy) z (r, s) =
      match Point.mul secp (.affine q qy (some secpN)) ((r * w) % (secpN : Int)) with
      | .error e => .error e
      | .ok P2 => match Point.add secp P1 P2 with
        | .error e => .error e
        | .ok R => match R.pair with
          | none => .error .typeError
          | some (x, _) => .ok (x % (secpN : Int) == r) := by
    intro q hq
    unfold Ecdsa.verify
    simp only [show secpG.order = some secpN from rfl]
    rw [if_neg (by omega), if_neg (by omega)]
    simp only [hw, hP1, isPoint_make hq, bind, Except.bind]
    cases Point.mul secp (.affine q qy (some secpN)) ((r * w) % (secpN : Int)) with
    | error e => rfl
    | ok P2 =>
      cases h : Point.add secp P1 P2 with
      | error e => simp only [h]
      | ok R => simp only [h]; cases R <;> rfl
  have hmul := mul_red hx hQ ((r * w) % (secpN : Int))
  rw [hv qx hQ, hv (red qx) (isPoint_red.2 hQ), hmul]
  refine ⟨fun h => ?_, fun h hz => ?_, fun h hz => ?_, fun hu => ?_⟩
  · have hne : ¬ (r * w) % (secpN : Int) % (secpN : Int) = 1 := by
      rw [one_iff]
      rintro rfl
      have e : r + 2 * r = 3 * r := by ring
      rw [e, ← Int.dvd_iff_emod_eq_zero] at h
      rcases (Nat.prime_iff_prime_int.1 prime_secpN).dvd_or_dvd h with h | h
      · have := Int.le_of_dvd (by omega) h; omega
      · have := Int.le_of_dvd (by omega) h; omega
    rw [if_neg hne, if_pos (two_iff.2 h)]
  · rw [if_pos (one_iff.2 h)]
    rcases nice_cases n1 with ⟨rfl, -⟩ | ⟨x, y, o, rfl, -, -, hp⟩
    · simp only [Point.add, Point.pair]
      rw [Bool.beq_eq_decide_eq]
    · exact absurd (by rw [hz, zsmul_zero]) (isPoint_ne_zero hp)
  · rw [if_pos (one_iff.2 h)]
    subst h
    have hT : w • z • G = Q ∨ w • z • G = -Q := by
      rw [inv_smul hsw, inv_smul hsw, zsmul_neg]; exact hz
    have hT0 : w • z • G ≠ 0 := by
      rcases hT with h | h <;> rw [h]
      · exact isPoint_ne_zero hQ
      · rw [Ne, neg_eq_zero]; exact isPoint_ne_zero hQ
    simp only [show Point.add secp P1 (.affine qx qy (some secpN)) = .error .assertionError from
      (add_red (o' := none) n1.denotes hT0 hx hQ).1 hT]
  · obtain ⟨hu1, hu2⟩ := hu.resolve_left hx
    by_cases h : r = s
    · rw [if_pos (one_iff.2 h), mul_one' (isPoint_red.2 hQ) _ (one_iff.2 h)]
      subst h
      obtain ⟨g1, g2, g3⟩ := hu2 rfl
      have hT : ¬ (w • z • G = Q ∨ w • z • G = -Q) := by
        rw [inv_smul hsw, inv_smul hsw, zsmul_neg]; exact not_or.2 ⟨g2, g3⟩
      have hT0 : w • z • G ≠ 0 := by
        rw [Ne, inv_smul hsw, zsmul_zero]; exact g1
      simp only [(add_red (o := some secpN) (o' := some secpN) n1.denotes hT0 hx hQ).2 hT]
    · rw [if_neg (mt one_iff.1 h), if_neg (mt two_iff.1 hu1)]

theorem usual_eq {qx qy z r s : Int} {Q : SecpGroup} (hr : InRange r s) (hQ : IsPoint qx qy Q) (hu : Usual qx z r s Q) :
    Ecdsa.verify secp secpG (qx, qy) z (r, s) = Ecdsa.verify secp secpG (red qx, qy) z (r, s) := by
  by_cases hx : reduced qx
  · rw [red_eq hx]
  · exact (verify_unreduced hr hQ hx).2.2.2 hu

/-- C128. Verification of every signature of every value by every pair. -/
theorem C128_verify (qx qy z r s : Int) (o : Except Err Bool) :
    Ecdsa.verify secp secpG (qx, qy) z (r, s) = o ↔ Verified qx qy z r s o := by
  refine graph (f := fun z => Ecdsa.verify secp secpG (qx, qy) z (r, s)) (R := fun z => Verified qx qy z r s) ?_ ?_ z o
  · intro z o h
    have hx := red_reduced qx
    cases h with
    | range h => exact verify_out_of_range (fun hr => h (inRange_iff.2 hr))
    | outside hr h => exact verify_outside hr h
    | @infinity Q hr hQ hu h =>
      obtain ⟨h1, h2, h3, h4⟩ := inRange_iff.1 hr
      simp only [usual_eq hr hQ hu]
      obtain ⟨w, hw, h' | ⟨x, y, -, hp, -⟩⟩ := verify_eq (z := z) (isPoint_red.2 hQ) hx h1 h2 h3 h4
      · exact h'.2
      · exact absurd ((sum_zero hw).2 h) (isPoint_ne_zero hp)
    | good hQ hu h =>
      obtain ⟨h1, h2, h3, h4, -⟩ := id h
      simp only [usual_eq (inRange_iff.2 ⟨h1, h2, h3, h4⟩) hQ hu]
      exact (verify_iff (isPoint_red.2 hQ) hx).2 h
    | @bad Q hr hQ hu h hn =>
      obtain ⟨h1, h2, h3, h4⟩ := inRange_iff.1 hr
      simp only [usual_eq hr hQ hu]
      obtain ⟨w, hw, h' | ⟨x, y, -, hp, he⟩⟩ := verify_eq (z := z) (isPoint_red.2 hQ) hx h1 h2 h3 h4
      · exact absurd ((sum_zero hw).1 h'.1) h
      · have hv := mt (verify_iff (z := z) (r := r) (s := s) (isPoint_red.2 hQ) hx).1 hn
        rw [he] at hv ⊢
        cases hb : (x % (secpN : Int) == r) with
        | true => rw [hb] at hv; exact absurd rfl hv
        | false => rfl
    | minusTwo hr hQ hx h => exact (verify_unreduced hr hQ hx).1 h
    | meets hr hQ hx h hz => exact (verify_unreduced hr hQ hx).2.2.1 h hz
    | alone hr hQ hx h hz => exact (verify_unreduced hr hQ hx).2.1 h hz
  · intro z
    by_cases hr : InRange r s
    · by_cases ho : OnSecp qx qy
      · obtain ⟨Q, hQ⟩ := isPoint_onSecp.1 ho
        by_cases hu : Usual qx z r s Q
        · by_cases h0 : z • G + r • Q = 0
          · exact ⟨_, .infinity hr hQ hu h0⟩
          · by_cases hv : ValidSig Q z r s
            · exact ⟨_, .good hQ hu hv⟩
            · exact ⟨_, .bad hr hQ hu h0 hv⟩
        · obtain ⟨hx, hu⟩ := not_or.1 hu
          by_cases h2 : (r + 2 * s) % (secpN : Int) = 0
          · exact ⟨_, .minusTwo hr hQ hx h2⟩
          · by_cases hrs : r = s
            · by_cases hz : z • G = 0
              · exact ⟨_, .alone hr hQ hx hrs hz⟩
              · by_cases hm : z • G = r • Q ∨ z • G = -(r • Q)
                · exact ⟨_, .meets hr hQ hx hrs hm⟩
                · exact absurd ⟨h2, fun _ => ⟨hz, not_or.1 hm⟩⟩ hu
            · exact absurd ⟨h2, fun h => absurd h hrs⟩ hu
      · exact ⟨_, .outside hr ho⟩
    · exact ⟨_, .range hr⟩

example : Verified secpGx secpGy (-secpGx) secpGx 1 (.error .typeError) := (C128_verify _ _ _ _ _ _).1 (by decide +kernel)
example : Verified 1 1 0 1 1 (.error .noSuchPointError) := (C128_verify _ _ _ _ _ _).1 (by decide +kernel)

theorem shifted_G : IsPoint (secpGx + secp.p) secpGy G ∧ ¬ reduced (secpGx + secp.p) := by
  have e : red (secpGx + secp.p) = secpGx := by decide
  refine ⟨?_, by unfold reduced; decide⟩
  rw [← isPoint_red, e]
  exact denotes_isPoint (denotes_G none)

/-- The generator as public key, given with `x + p`: a valid signature is refused or makes the code fail. -/
example : Verified (secpGx + secp.p) secpGy 0 secpGx secpGx (.ok false) ∧
    Verified (secpGx + secp.p) secpGy 1 1 1 (.error .assertionError) ∧
    Verified (secpGx + secp.p) secpGy 5 (secpN - 2) 1 (.error .assertionError) :=
  ⟨.alone (by unfold InRange; decide) shifted_G.1 shifted_G.2 rfl (zero_zsmul _),
    .meets (by unfold InRange; decide) shifted_G.1 shifted_G.2 rfl (.inl rfl),
    .minusTwo (by unfold InRange; decide) shifted_G.1 shifted_G.2 (by decide)⟩

/-! ## Recovery -/

theorem isPoint_neg {x y : Int} {T : SecpGroup} (h : IsPoint x y T) (hx : reduced x) : HasX (-T) x := by
  obtain ⟨_, hD⟩ := neg_denotes secp_regular (isPoint_denotes h hx none) none
  exact ⟨hx, _, denotes_isPoint hD⟩

theorem hasX_iff {T S : SecpGroup} {x : Int} (h : HasX T x) : HasX S x ↔ S = T ∨ S = -T := by
  obtain ⟨hx, y, hy⟩ := h
  constructor
  · rintro ⟨-, y', hy'⟩
    exact isPoint_pm hy hy'
  · rintro (rfl | rfl)
    · exact ⟨hx, y, hy⟩
    · exact isPoint_neg hy hx

/-- `Q = r⁻¹(s·T - z·G)` is the solution of `r·Q = s·T - z·G`. -/
theorem recovered_iff {v z r s : Int} (hv : (r * v) % (secpN : Int) = 1) (T Q : SecpGroup) :
    r • Q = s • T - z • G ↔ Q = recovered v z s T := by
  have e1 : ∀ P : SecpGroup, v • (r • P) = P := by
    intro P
    rw [← mul_zsmul', zsmul_congr (b := 1) (by rw [hv]; decide), one_zsmul]
  have e2 : ∀ P : SecpGroup, r • (v • P) = P := by
    intro P
    rw [← mul_zsmul', mul_comm, zsmul_congr (b := 1) (by rw [hv]; decide), one_zsmul]
  have e3 : s • T - z • G = s • T + (-z) • G := by rw [neg_zsmul, sub_eq_add_neg]
  unfold recovered
  rw [e3]
  constructor
  · intro h; rw [← h, e1]
  · rintro rfl; rw [e2]

theorem signer_iff {v z r s : Int} (hv : (r * v) % (secpN : Int) = 1) {T : SecpGroup} (hT : HasX T r) (Q : SecpGroup) :
    Signer z r s Q ↔ Q = recovered v z s T ∨ Q = recovered v z s (-T) := by
  unfold Signer
  constructor
  · rintro ⟨S, hS, h⟩
    rcases (hasX_iff hT).1 hS with rfl | rfl
    · exact .inl ((recovered_iff hv _ _).1 h)
    · exact .inr ((recovered_iff hv _ _).1 h)
  · rintro (h | h)
    · exact ⟨T, hT, (recovered_iff hv _ _).2 h⟩
    · exact ⟨-T, (hasX_iff hT).2 (.inr rfl), (recovered_iff hv _ _).2 h⟩

/-- Once the candidate is computed, nothing is added for a signature out of range. -/
theorem recoverOne_of {v z r s y : Int} (h : ¬ InRange r s) {R S E U Q : Point} (hR : Point.make secp r y (some secpN) = .ok R)
    (hS : Point.mul secp R s = .ok S) (hE : Point.mul secp secpG ((-z) % (secpN : Int)) = .ok E)
    (hU : Point.add secp S E = .ok U) (hQ : Point.mul secp U v = .ok Q) (points : List (Int × Int)) :
    Ecdsa.recoverOne secp secpG secpN z (r, s) v ((-z) % (secpN : Int)) y points = .ok points := by
  unfold Ecdsa.recoverOne
  simp only [hR, hS, hE, hU, hQ, bind, Except.bind]
  cases Q with
  | infinity =>
    simp only [Point.pair]
    rw [if_pos]
    unfold InRange at h; omega
  | affine a b o =>
    simp only [Point.pair, verify_out_of_range (fun hr => h (inRange_iff.2 hr)), Bool.false_eq_true, false_and, if_false]

theorem recoverOne_out {v z r s y : Int} {T : SecpGroup} (h : ¬ InRange r s) (hv0 : 0 ≤ v) (hv1 : v < secpN)
    (hx : reduced r) (hy : reduced y) (hT : IsPoint r y T) (points : List (Int × Int)) :
    Ecdsa.recoverOne secp secpG secpN z (r, s) v ((-z) % (secpN : Int)) y points = .ok points := by
  obtain ⟨S, hS, nS⟩ := nice_mul_any (isPoint_nice hT hx hy) rfl s
  obtain ⟨E, hE, nE⟩ := nice_mul_any nice_G rfl ((-z) % (secpN : Int))
  obtain ⟨U, hU, nU⟩ := nice_add nS nE
  obtain ⟨Q, hQ, nQ⟩ := nice_mul nU v hv0 hv1
  exact recoverOne_of h (isPoint_make hT _) hS hE hU hQ points

/-- The candidate of a signature whose `r` is out of `[0, p)`. -/
theorem recoverOne_unreduced {v z r s y : Int} {T : SecpGroup} (hv0 : 0 ≤ v) (hv1 : v < secpN)
    (hrv : (r * v) % (secpN : Int) = 1) (hx : ¬ reduced r) (hy : reduced y) (hT : IsPoint r y T) (points : List (Int × Int)) :
    (Meets z r s T → Ecdsa.recoverOne secp secpG secpN z (r, s) v ((-z) % (secpN : Int)) y points = .error .assertionError) ∧
    (¬ Meets z r s T → Ecdsa.recoverOne secp secpG secpN z (r, s) v ((-z) % (secpN : Int)) y points = .ok points) := by
  have hout : ¬ InRange r s := by
    rintro ⟨⟨h1, h2⟩, -⟩
    have hp : (secpN : Int) < secp.p := by decide
    exact hx ((reduced_iff r).2 ⟨by omega, by omega⟩)
  have hbig : (1000 : Int) < secpN := by decide
  have hT0 := isPoint_ne_zero hT
  have hT' := isPoint_red.2 hT
  have hR := isPoint_make hT (some secpN)
  obtain ⟨E, hE, nE⟩ := nice_mul_any nice_G rfl ((-z) % (secpN : Int))
  rw [zsmul_mod, neg_zsmul] at nE
  have hmul := mul_red hx hT s
  by_cases s2 : (s + 2) % (secpN : Int) = 0
  · refine ⟨fun _ => ?_, fun h => absurd (.inl s2) h⟩
    rw [if_neg, if_pos s2] at hmul
    · unfold Ecdsa.recoverOne
      simp only [hR, hmul, bind, Except.bind]
    · intro h
      rw [Int.add_emod, h, Int.emod_eq_of_lt (a := 2) (by omega) (by omega), Int.emod_eq_of_lt (by omega) (by omega)] at s2
      omega
  by_cases s1 : s % (secpN : Int) = 1
  · rw [if_pos s1] at hmul
    have hM : Meets z r s T ↔ (z • G = T ∨ z • G = -T ∨ z • G = 0 ∧ (2 * r + 1) % (secpN : Int) = 0) := by
      unfold Meets; simp [s1, s2]
    rw [hM]
    by_cases hz : z • G = 0
    · have e1 : z • G ≠ T := by rw [hz]; exact hT0.symm
      have e2 : z • G ≠ -T := by rw [hz]; exact fun h => hT0 (neg_eq_zero.1 h.symm)
      rw [hz, neg_zero] at nE
      rcases nice_cases nE with ⟨rfl, -⟩ | ⟨_, _, _, rfl, _, _, hp⟩
      swap
      · exact absurd rfl (isPoint_ne_zero hp)
      have hU : Point.add secp (.affine r y (some secpN)) .infinity = .ok (.affine r y (some secpN)) := rfl
      have v2 : (v + 2) % (secpN : Int) = 0 ↔ (2 * r + 1) % (secpN : Int) = 0 := by
        have hvr : (v * r) % (secpN : Int) = 1 := by rw [mul_comm]; exact hrv
        rw [← inv_mul_zero (k := v) (w := r) hvr]
        have e : r * (v + 2) = 2 * r + r * v := by ring
        rw [e, Int.add_emod, hrv, Int.add_emod (2 * r) 1]
        rfl
      have hm := mul_red hx hT v
      by_cases h2 : (2 * r + 1) % (secpN : Int) = 0
      · refine ⟨fun _ => ?_, fun h => absurd (.inr (.inr ⟨hz, h2⟩)) h⟩
        have h2' := v2.2 h2
        rw [if_neg, if_pos h2'] at hm
        · unfold Ecdsa.recoverOne
          simp only [hR, hmul, hE, hU, hm, bind, Except.bind]
        · intro h
          rw [Int.add_emod, h, Int.emod_eq_of_lt (a := 2) (by omega) (by omega), Int.emod_eq_of_lt (by omega) (by omega)] at h2'
          omega
      · refine ⟨fun h => ?_, fun _ => ?_⟩
        · rcases h with h | h | h
          · exact absurd h e1
          · exact absurd h e2
          · exact absurd h.2 h2
        · obtain ⟨Q, hQ⟩ : ∃ Q, Point.mul secp (.affine r y (some secpN)) v = .ok Q := by
            rw [hm]
            by_cases h1 : v % (secpN : Int) = 1
            · rw [if_pos h1]; exact ⟨_, rfl⟩
            · rw [if_neg h1, if_neg (mt v2.1 h2)]
              obtain ⟨Q, hQ, -⟩ := nice_mul_any (isPoint_nice hT' (red_reduced r) hy) rfl v
              exact ⟨Q, hQ⟩
          exact recoverOne_of hout hR hmul hE hU hQ points
    · have hE0 : -(z • G) ≠ 0 := by rwa [Ne, neg_eq_zero]
      have hpm : (-(z • G) = T ∨ -(z • G) = -T) ↔ (z • G = T ∨ z • G = -T) := by
        rw [neg_inj, neg_eq_iff_eq_neg, or_comm]
      have hadd := red_add (o := some secpN) (o' := some secpN) nE.denotes hE0 hx hT
      rw [hpm] at hadd
      by_cases hm : z • G = T ∨ z • G = -T
      · refine ⟨fun _ => ?_, fun h => absurd (hm.imp id .inl) h⟩
        unfold Ecdsa.recoverOne
        simp only [hR, hmul, hE, hadd.1 hm, bind, Except.bind]
      · refine ⟨fun h => ?_, fun _ => ?_⟩
        · rcases h with h | h | h
          · exact absurd (.inl h) hm
          · exact absurd (.inr h) hm
          · exact absurd h.1 hz
        · obtain ⟨U, hU, nU⟩ := nice_add (isPoint_nice hT' (red_reduced r) hy) nE
          obtain ⟨Q, hQ, -⟩ := nice_mul nU v hv0 hv1
          exact recoverOne_of hout hR hmul hE ((hadd.2 hm).trans hU) hQ points
  · refine ⟨fun h => ?_, fun _ => ?_⟩
    · rcases h with h | h
      · exact absurd h s2
      · exact absurd h.1 s1
    · rw [if_neg s1, if_neg s2] at hmul
      obtain ⟨S, hS, nS⟩ := nice_mul_any (isPoint_nice hT' (red_reduced r) hy) rfl s
      obtain ⟨U, hU, nU⟩ := nice_add nS nE
      obtain ⟨Q, hQ, -⟩ := nice_mul nU v hv0 hv1
      exact recoverOne_of hout hR (hmul.trans hS) hE hU hQ points

theorem meets_neg {z r s : Int} {T : SecpGroup} : Meets z r s (-T) ↔ Meets z r s T := by
  unfold Meets
  rw [neg_neg, ← or_assoc (a := z • G = -T), or_comm (a := z • G = -T), or_assoc]

theorem meets_pm {z r s y y' : Int} {T T' : SecpGroup} (h : IsPoint r y T) (h' : IsPoint r y' T') :
    Meets z r s T' ↔ Meets z r s T := by
  rcases isPoint_pm h h' with rfl | rfl
  · rfl
  · exact meets_neg

theorem recover_out {z r s y : Int} (h0 : r % (secpN : Int) ≠ 0) {T : SecpGroup} (hT : IsPoint r y T) (h : ¬ InRange r s) :
    (reduced r ∨ ¬ Meets z r s T → Ecdsa.possiblePublicPairs secp secpG z (r, s) = .ok []) ∧
    (¬ reduced r → Meets z r s T → Ecdsa.possiblePublicPairs secp secpG z (r, s) = .error .assertionError) := by
  obtain ⟨v, hv, hv1, hv2, hrv⟩ := inverseMod_secpN h0
  rcases sqrt_any r with ⟨b, S, hb, rb, rb', pS, pS'⟩ | ⟨hno, -⟩
  · have e1 : Meets z r s T ↔ Meets z r s S := meets_pm pS hT
    have e2 : Meets z r s T ↔ Meets z r s (-S) := e1.trans meets_neg.symm
    unfold Ecdsa.possiblePublicPairs
    simp only [show secpG.order = some secpN from rfl, hv, hb, bind, Except.bind]
    by_cases hx : reduced r
    · refine ⟨fun _ => ?_, fun h => absurd hx h⟩
      rw [recoverOne_out h (by omega) hv2 hx rb pS]
      exact recoverOne_out h (by omega) hv2 hx rb' pS' []
    · refine ⟨fun hm => ?_, fun _ hm => ?_⟩
      · have hm := hm.resolve_left hx
        rw [(recoverOne_unreduced (by omega) hv2 hrv hx rb pS []).2 (mt e1.2 hm)]
        exact (recoverOne_unreduced (by omega) hv2 hrv hx rb' pS' []).2 (mt e2.2 hm)
      · rw [(recoverOne_unreduced (by omega) hv2 hrv hx rb pS []).1 (e1.1 hm)]
  · exact absurd ((onSecp_iff _ _).1 (isPoint_onSecp.2 ⟨T, hT⟩)) (hno y)

theorem inRange_reduced {r s : Int} (h : InRange r s) : reduced r := by
  have hp : (secpN : Int) < secp.p := by decide
  obtain ⟨⟨h1, h2⟩, -⟩ := h
  exact (reduced_iff r).2 ⟨by omega, by omega⟩

/-- C128. The keys recovered from every signature of every value: the set is that of the signers. -/
theorem C128_recover (z r s : Int) (o : Except Err (Finset (Int × Int))) :
    (Ecdsa.possiblePublicPairs secp secpG z (r, s)).map List.toFinset = o ↔ Recovered z r s o := by
  refine graph (f := fun z => (Ecdsa.possiblePublicPairs secp secpG z (r, s)).map List.toFinset)
    (R := fun z => Recovered z r s) ?_ ?_ z o
  · intro z o h
    cases h with
    | zero h =>
      have hi : inverseMod r secpN = .error .assertionError := by
        refine (inverseMod_spec r secpN (by decide)).2 ?_
        intro hg
        rw [← Int.isCoprime_iff_gcd_eq_one] at hg
        have hd : (secpN : Int) ∣ r := Int.dvd_of_emod_eq_zero h
        have := hg.isUnit_of_dvd' hd dvd_rfl
        rw [Int.isUnit_iff] at this
        revert this; decide
      unfold Ecdsa.possiblePublicPairs
      simp only [show secpG.order = some secpN from rfl, hi, bind, Except.bind]
      rfl
    | nowhere h0 hno =>
      obtain ⟨v, hv, -, -, -⟩ := inverseMod_secpN h0
      rcases sqrt_any r with ⟨b, S, -, -, -, pS, -⟩ | ⟨-, hb⟩
      · exact absurd (isPoint_onSecp.2 ⟨S, pS⟩) (hno b)
      · have hm : Point.make secp r ((0 : Nat) : Int) (some secpN) = .error .noSuchPointError := by
          unfold Point.make
          rw [if_neg]
          intro hc
          exact hno _ ((onSecp_iff _ _).2 hc)
        unfold Ecdsa.possiblePublicPairs Ecdsa.recoverOne
        simp only [show secpG.order = some secpN from rfl, hv, hb, bind, Except.bind, hm]
        rfl
    | range h0 hT h hm => simp only [(recover_out h0 hT h).1 hm]; rfl
    | meets h0 hT hx hm => simp only [(recover_out h0 hT (fun h => hx (inRange_reduced h))).2 hx hm]; rfl
    | infinity hr hs =>
      obtain ⟨h1, h2, h3, h4⟩ := inRange_iff.1 hr
      obtain ⟨T, hT, -⟩ := id hs
      obtain ⟨v, hv, ⟨-, e⟩ | ⟨n1, n2, -⟩⟩ := recover_eq (z := z) h1 h2 h3 h4 hT
      · rw [e]; rfl
      · rcases (signer_iff hv hT 0).1 hs with h | h
        · exact absurd h.symm n1
        · exact absurd h.symm n2
    | @found T F hr hT hs hF =>
      obtain ⟨h1, h2, h3, h4⟩ := inRange_iff.1 hr
      obtain ⟨v, hv, ⟨h0, -⟩ | ⟨-, -, l, hl, hm⟩⟩ := recover_eq (z := z) h1 h2 h3 h4 hT
      · exact absurd ((signer_iff hv hT 0).2 (h0.imp Eq.symm Eq.symm)) hs
      · rw [hl]
        refine congrArg Except.ok (Finset.ext ?_)
        rintro ⟨a, b⟩
        rw [List.mem_toFinset, hm, hF]
        refine and_congr_right fun _ => and_congr_right fun _ => ?_
        simp only [signer_iff hv hT]
        constructor
        · rintro (h | h)
          · exact ⟨_, h, .inl rfl⟩
          · exact ⟨_, h, .inr rfl⟩
        · rintro ⟨Q, hQ, rfl | rfl⟩
          · exact .inl hQ
          · exact .inr hQ
  · intro z
    by_cases h0 : r % (secpN : Int) = 0
    · exact ⟨_, .zero h0⟩
    by_cases hno : ∀ y, ¬ OnSecp r y
    · exact ⟨_, .nowhere h0 hno⟩
    obtain ⟨y, hy⟩ := not_forall.1 hno
    obtain ⟨T, hy⟩ := isPoint_onSecp.1 (not_not.1 hy)
    by_cases hr : InRange r s
    · have hT : HasX T r := ⟨inRange_reduced hr, y, hy⟩
      by_cases hs : Signer z r s 0
      · exact ⟨_, .infinity hr hs⟩
      · obtain ⟨h1, h2, h3, h4⟩ := inRange_iff.1 hr
        obtain ⟨v, hv, ⟨h0, -⟩ | ⟨-, -, l, hl, hm⟩⟩ := recover_eq (z := z) h1 h2 h3 h4 hT
        · exact absurd ((signer_iff hv hT 0).2 (h0.imp Eq.symm Eq.symm)) hs
        · refine ⟨.ok l.toFinset, .found hr hT hs ?_⟩
          intro a b
          rw [List.mem_toFinset, hm]
          refine and_congr_right fun _ => and_congr_right fun _ => ?_
          simp only [signer_iff hv hT]
          constructor
          · rintro (h | h)
            · exact ⟨_, h, .inl rfl⟩
            · exact ⟨_, h, .inr rfl⟩
          · rintro ⟨Q, hQ, rfl | rfl⟩
            · exact .inl hQ
            · exact .inr hQ
    · by_cases hx : reduced r
      · exact ⟨_, .range h0 hy hr (.inl hx)⟩
      · by_cases hm : Meets z r s T
        · exact ⟨_, .meets h0 hy hx hm⟩
        · exact ⟨_, .range h0 hy hr (.inr hm)⟩

/-- Every element but zero has coordinates in `[0, p)`. -/
theorem coords {Q : SecpGroup} (h : Q ≠ 0) : ∃ a b, reduced a ∧ reduced b ∧ IsPoint a b Q := by
  obtain ⟨k, -, rfl⟩ := exists_smul_G Q
  have := (C128_public (k : Int) _).1 rfl
  rw [← natCast_zsmul] at h ⊢
  generalize Ecdsa.publicPairForSecretExponent secp secpG k = o at this
  cases this with
  | infinity h0 => exact absurd h0 h
  | point hx hy hp => exact ⟨_, _, hx, hy, hp⟩

theorem recovered_ne {v z r s : Int} (hv : (r * v) % (secpN : Int) = 1) (hs : 1 ≤ s) (hs' : s < secpN) {T : SecpGroup}
    (hT : HasX T r) : recovered v z s T ≠ recovered v z s (-T) := by
  intro h
  have e := (recovered_iff (s := s) (z := z) hv (-T) (recovered v z s T)).2 h
  rw [(recovered_iff (s := s) (z := z) hv T _).2 rfl, sub_left_inj, zsmul_neg, eq_neg_iff_add_eq_zero] at e
  have e0 := secp_no_two_torsion _ e
  obtain ⟨-, y, hy⟩ := hT
  rcases zsmul_eq_zero.1 e0 with h0 | h0
  · rw [Int.emod_eq_of_lt (by omega) hs'] at h0; omega
  · exact isPoint_ne_zero hy h0

/-- C128. Two keys are recovered whenever any is. -/
theorem C128_two (z r s : Int) (l : List (Int × Int))
    (h : Ecdsa.possiblePublicPairs secp secpG z (r, s) = .ok l) (hl : l ≠ []) : l.length = 2 := by
  have hR := (C128_recover z r s (.ok l.toFinset)).1 (by rw [h]; rfl)
  generalize ho : (Except.ok l.toFinset : Except Err (Finset (Int × Int))) = o at hR
  cases hR with
  | zero => cases ho
  | meets => cases ho
  | nowhere => cases ho
  | infinity => cases ho
  | range =>
    have e := Except.ok.inj ho
    rw [List.toFinset_eq_empty_iff] at e
    exact absurd e hl
  | @found T F hr hT hs hF =>
    obtain ⟨h1, h2, h3, h4⟩ := inRange_iff.1 hr
    obtain ⟨v, hv, ⟨-, e⟩ | ⟨n1, n2, l', hl', hm⟩⟩ := recover_eq (z := z) h1 h2 h3 h4 hT
    · rw [h] at e; cases e
    · rw [h] at hl'
      cases hl'
      obtain ⟨a1, b1, ra1, rb1, p1⟩ := coords n1
      obtain ⟨a2, b2, ra2, rb2, p2⟩ := coords n2
      have hne : (a1, b1) ≠ (a2, b2) := by
        intro e
        cases e
        exact recovered_ne (z := z) hv h3 (by omega) hT (isPoint_det p1 p2)
      have hperm : l.Perm [(a1, b1), (a2, b2)] := by
        refine (List.perm_ext_iff_of_nodup (C62_sound z r s l h).2 (by simpa using hne)).2 ?_
        rintro ⟨a, b⟩
        rw [hm]
        simp only [List.mem_cons, List.not_mem_nil, or_false]
        constructor
        · rintro ⟨ra, rb, h | h⟩
          · left; rw [isPoint_x_unique h p1 ra ra1, isPoint_y_unique h p1 rb rb1]
          · right; rw [isPoint_x_unique h p2 ra ra2, isPoint_y_unique h p2 rb rb2]
        · rintro (h | h) <;> cases h
          · exact ⟨ra1, rb1, .inl p1⟩
          · exact ⟨ra2, rb2, .inr p2⟩
      exact hperm.length_eq

example : Recovered 0 0 1 (.error .assertionError) ∧ Recovered 0 5 1 (.error .noSuchPointError) ∧
    Recovered 0 secpGx 0 (.ok ∅) ∧ Recovered 1 secpGx 1 (.error .typeError) :=
  ⟨.zero (by decide), (C128_recover _ _ _ _).1 (by decide +kernel),
    .range (by decide) (denotes_isPoint (denotes_G none)) (by unfold InRange; decide) (.inl hasX_G.1),
    .infinity (by unfold InRange; decide) ⟨G, hasX_G, by rw [zsmul_zero, sub_self]⟩⟩

/-- `r = x(G) + p`: no key, or a failure. -/
example : Recovered 1 (secpGx + secp.p) 1 (.error .assertionError) ∧ Recovered 5 (secpGx + secp.p) 0 (.ok ∅) :=
  ⟨.meets (by decide) shifted_G.1 shifted_G.2 (.inr ⟨by decide, .inl (one_zsmul _)⟩),
    .range (by decide) shifted_G.1 (by unfold InRange; decide) (.inr (by unfold Meets; intro h; revert h; simp; decide))⟩

/-- A signature from which two keys are recovered. -/
example : ∃ l, Ecdsa.possiblePublicPairs secp secpG 0 (secpGx, 1) = .ok l ∧ l.length = 2 := by
  obtain ⟨v, hv, ⟨h0, -⟩ | ⟨n1, -, l, hl, hm⟩⟩ := recover_eq (z := 0) (r := secpGx) (s := 1) (by decide) (by decide)
    (by decide) (by decide) hasX_G
  · exfalso
    have hG : G ≠ 0 := isPoint_ne_zero hasX_G.2.choose_spec
    rcases h0 with h0 | h0
    · have := (recovered_iff (s := 1) (z := 0) hv G 0).2 h0.symm
      rw [zsmul_zero, one_zsmul, zero_zsmul, sub_zero] at this
      exact hG this.symm
    · have := (recovered_iff (s := 1) (z := 0) hv (-G) 0).2 h0.symm
      rw [zsmul_zero, one_zsmul, zero_zsmul, sub_zero, eq_comm, neg_eq_zero] at this
      exact hG this
  · refine ⟨l, hl, C128_two _ _ _ _ hl ?_⟩
    rintro rfl
    obtain ⟨a, b, ra, rb, hp⟩ := coords n1
    exact List.not_mem_nil ((hm a b).2 ⟨ra, rb, .inl hp⟩)

end Bitforge.Ecdsas
