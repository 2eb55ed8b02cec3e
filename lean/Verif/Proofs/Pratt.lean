import Verif.Proofs.NumberTheory
import Mathlib.NumberTheory.LucasPrimality
import Mathlib.Tactic.NormNum.Prime
import Verif.Curve

/-! # Primality of the secp256k1 field prime and group order (Pratt certificates) -/

namespace Bitforge

theorem powModAux_eq' (m : Nat) : ∀ fuel b e, e < 2 ^ fuel → powModAux fuel b e m = b ^ e % m := by
  intro fuel
  induction fuel with
  | zero => intro b e h; have : e = 0 := by simpa using h
            subst this; simp [powModAux]
  | succ fuel ih =>
    intro b e h
    unfold powModAux
    by_cases he : e = 0
    · subst he; simp
    · simp only [he, if_false]
      rw [ih _ _ (by rw [pow_succ] at h; omega), ← Nat.pow_mod, ← pow_two, ← pow_mul]
      split
      · rw [Nat.mod_mul_mod, ← pow_succ]
        congr 2; omega
      · congr 2; omega

/-- The computational part of a Pratt certificate. -/
def prattCheck (p a : Nat) (fs : List (Nat × Nat)) : Bool :=
  decide (1 < p) && decide (p < 2 ^ 256) && decide ((fs.map fun f => f.1 ^ f.2).prod = p - 1) &&
  (powModAux 256 a (p - 1) p == 1) && fs.all fun f => powModAux 256 a ((p - 1) / f.1) p != 1

theorem pratt (p a : Nat) (fs : List (Nat × Nat)) (hfs : ∀ f ∈ fs, f.1.Prime)
    (h : prattCheck p a fs = true) : p.Prime := by
  simp only [prattCheck, Bool.and_eq_true, decide_eq_true_eq, beq_iff_eq, List.all_eq_true, bne_iff_ne] at h
  obtain ⟨⟨⟨⟨h1, h2⟩, hprod⟩, hone⟩, hall⟩ := h
  have cast : ∀ e, e ≤ p → powModAux 256 a e p = a ^ e % p :=
    fun e he => powModAux_eq' p 256 a e (lt_of_le_of_lt he h2)
  have one : ∀ e, e ≤ p → (((a : Nat) : ZMod p) ^ e = 1 ↔ powModAux 256 a e p = 1) := by
    intro e he
    rw [cast e he, ← Nat.cast_pow]
    have : (1 : ZMod p) = ((1 : Nat) : ZMod p) := by simp
    rw [this, ZMod.natCast_eq_natCast_iff', Nat.mod_eq_of_lt h1]
  refine lucas_primality p (a : ZMod p) ((one _ (by omega)).2 hone) ?_
  intro q hq hdvd
  rw [← hprod] at hdvd
  obtain ⟨x, hx, hqx⟩ := (Nat.Prime.prime hq).dvd_prod_iff.1 hdvd
  obtain ⟨f, hf, rfl⟩ := List.mem_map.1 hx
  have : q = f.1 := (Nat.prime_dvd_prime_iff_eq hq (hfs f hf)).1 (hq.dvd_of_dvd_pow hqx)
  subst this
  intro e
  exact hall f hf ((one _ (le_trans (Nat.div_le_self _ _) (by omega))).1 e)

theorem prime_2 : Nat.Prime 2 := by norm_num

theorem prime_3 : Nat.Prime 3 := by norm_num

theorem prime_7 : Nat.Prime 7 := by norm_num

theorem prime_13441 : Nat.Prime 13441 := by norm_num

theorem prime_5 : Nat.Prime 5 := by norm_num

theorem prime_29 : Nat.Prime 29 := by norm_num

theorem prime_31 : Nat.Prime 31 := by norm_num

theorem prime_7723 : Nat.Prime 7723 := by norm_num

theorem prime_5323 : Nat.Prime 5323 := by norm_num

theorem prime_2621 : Nat.Prime 2621 := by norm_num

theorem prime_24809 : Nat.Prime 24809 := by norm_num

theorem prime_13331831 : Nat.Prime 13331831 := by norm_num

theorem prime_173378833005251801 : Nat.Prime 173378833005251801 :=
  pratt 173378833005251801 6 [(2, 3), (5, 2), (2621, 1), (24809, 1), (13331831, 1)]
    (by simp only [List.forall_mem_cons, List.not_mem_nil, false_implies, implies_true, and_true]
        exact ⟨prime_2, prime_5, prime_2621, prime_24809, prime_13331831⟩)
    (by decide +kernel)

theorem prime_22149492674086928081353 : Nat.Prime 22149492674086928081353 :=
  pratt 22149492674086928081353 5 [(2, 3), (3, 1), (5323, 1), (173378833005251801, 1)]
    (by simp only [List.forall_mem_cons, List.not_mem_nil, false_implies, implies_true, and_true]
        exact ⟨prime_2, prime_3, prime_5323, prime_173378833005251801⟩)
    (by decide +kernel)

theorem prime_132896956044521568488119 : Nat.Prime 132896956044521568488119 :=
  pratt 132896956044521568488119 6 [(2, 1), (3, 1), (22149492674086928081353, 1)]
    (by simp only [List.forall_mem_cons, List.not_mem_nil, false_implies, implies_true, and_true]
        exact ⟨prime_2, prime_3, prime_22149492674086928081353⟩)
    (by decide +kernel)

theorem prime_11 : Nat.Prime 11 := by norm_num

theorem prime_1627 : Nat.Prime 1627 := by norm_num

theorem prime_2657 : Nat.Prime 2657 := by norm_num

theorem prime_4423 : Nat.Prime 4423 := by norm_num

theorem prime_41201 : Nat.Prime 41201 := by norm_num

theorem prime_96557 : Nat.Prime 96557 := by norm_num

theorem prime_7240687 : Nat.Prime 7240687 := by norm_num

theorem prime_53 : Nat.Prime 53 := by norm_num

theorem prime_107590001 : Nat.Prime 107590001 :=
  pratt 107590001 3 [(2, 4), (5, 4), (7, 1), (29, 1), (53, 1)]
    (by simp only [List.forall_mem_cons, List.not_mem_nil, false_implies, implies_true, and_true]
        exact ⟨prime_2, prime_5, prime_7, prime_29, prime_53⟩)
    (by decide +kernel)

theorem prime_255515944373312847190720520512484175977 : Nat.Prime 255515944373312847190720520512484175977 :=
  pratt 255515944373312847190720520512484175977 3 [(2, 3), (7, 2), (11, 1), (1627, 1), (2657, 1), (4423, 1), (41201, 1), (96557, 1), (7240687, 1), (107590001, 1)]
    (by simp only [List.forall_mem_cons, List.not_mem_nil, false_implies, implies_true, and_true]
        exact ⟨prime_2, prime_7, prime_11, prime_1627, prime_2657, prime_4423, prime_41201, prime_96557, prime_7240687, prime_107590001⟩)
    (by decide +kernel)

theorem prime_205115282021455665897114700593932402728804164701536103180137503955397371 : Nat.Prime 205115282021455665897114700593932402728804164701536103180137503955397371 :=
  pratt 205115282021455665897114700593932402728804164701536103180137503955397371 10 [(2, 1), (3, 1), (5, 1), (29, 2), (31, 1), (7723, 1), (132896956044521568488119, 1), (255515944373312847190720520512484175977, 1)]
    (by simp only [List.forall_mem_cons, List.not_mem_nil, false_implies, implies_true, and_true]
        exact ⟨prime_2, prime_3, prime_5, prime_29, prime_31, prime_7723, prime_132896956044521568488119, prime_255515944373312847190720520512484175977⟩)
    (by decide +kernel)

theorem prime_secpP' : Nat.Prime 115792089237316195423570985008687907853269984665640564039457584007908834671663 :=
  pratt 115792089237316195423570985008687907853269984665640564039457584007908834671663 3 [(2, 1), (3, 1), (7, 1), (13441, 1), (205115282021455665897114700593932402728804164701536103180137503955397371, 1)]
    (by simp only [List.forall_mem_cons, List.not_mem_nil, false_implies, implies_true, and_true]
        exact ⟨prime_2, prime_3, prime_7, prime_13441, prime_205115282021455665897114700593932402728804164701536103180137503955397371⟩)
    (by decide +kernel)

theorem prime_149 : Nat.Prime 149 := by norm_num

theorem prime_631 : Nat.Prime 631 := by norm_num

theorem prime_16699 : Nat.Prime 16699 := by norm_num

theorem prime_85831 : Nat.Prime 85831 := by norm_num

theorem prime_4681609 : Nat.Prime 4681609 := by norm_num

theorem prime_107361793816595537 : Nat.Prime 107361793816595537 :=
  pratt 107361793816595537 3 [(2, 4), (16699, 1), (85831, 1), (4681609, 1)]
    (by simp only [List.forall_mem_cons, List.not_mem_nil, false_implies, implies_true, and_true]
        exact ⟨prime_2, prime_16699, prime_85831, prime_4681609⟩)
    (by decide +kernel)

theorem prime_17 : Nat.Prime 17 := by norm_num

theorem prime_59 : Nat.Prime 59 := by norm_num

theorem prime_4051 : Nat.Prime 4051 := by norm_num

theorem prime_120233 : Nat.Prime 120233 := by norm_num

theorem prime_797 : Nat.Prime 797 := by norm_num

theorem prime_9349 : Nat.Prime 9349 := by norm_num

theorem prime_44706919 : Nat.Prime 44706919 :=
  pratt 44706919 6 [(2, 1), (3, 1), (797, 1), (9349, 1)]
    (by simp only [List.forall_mem_cons, List.not_mem_nil, false_implies, implies_true, and_true]
        exact ⟨prime_2, prime_3, prime_797, prime_9349⟩)
    (by decide +kernel)

theorem prime_174723607534414371449 : Nat.Prime 174723607534414371449 :=
  pratt 174723607534414371449 3 [(2, 3), (17, 1), (59, 1), (4051, 1), (120233, 1), (44706919, 1)]
    (by simp only [List.forall_mem_cons, List.not_mem_nil, false_implies, implies_true, and_true]
        exact ⟨prime_2, prime_17, prime_59, prime_4051, prime_120233, prime_44706919⟩)
    (by decide +kernel)

theorem prime_109 : Nat.Prime 109 := by norm_num

theorem prime_293 : Nat.Prime 293 := by norm_num

theorem prime_305873 : Nat.Prime 305873 := by norm_num

theorem prime_41 : Nat.Prime 41 := by norm_num

theorem prime_28181 : Nat.Prime 28181 := by norm_num

theorem prime_545358713 : Nat.Prime 545358713 :=
  pratt 545358713 5 [(2, 3), (41, 1), (59, 1), (28181, 1)]
    (by simp only [List.forall_mem_cons, List.not_mem_nil, false_implies, implies_true, and_true]
        exact ⟨prime_2, prime_41, prime_59, prime_28181⟩)
    (by decide +kernel)

theorem prime_461 : Nat.Prime 461 := by norm_num

theorem prime_1627771 : Nat.Prime 1627771 := by norm_num

theorem prime_297159362677 : Nat.Prime 297159362677 :=
  pratt 297159362677 2 [(2, 2), (3, 2), (11, 1), (461, 1), (1627771, 1)]
    (by simp only [List.forall_mem_cons, List.not_mem_nil, false_implies, implies_true, and_true]
        exact ⟨prime_2, prime_3, prime_11, prime_461, prime_1627771⟩)
    (by decide +kernel)

theorem prime_29047611873442575647497758179 : Nat.Prime 29047611873442575647497758179 :=
  pratt 29047611873442575647497758179 2 [(2, 1), (293, 1), (305873, 1), (545358713, 1), (297159362677, 1)]
    (by simp only [List.forall_mem_cons, List.not_mem_nil, false_implies, implies_true, and_true]
        exact ⟨prime_2, prime_293, prime_305873, prime_545358713, prime_297159362677⟩)
    (by decide +kernel)

theorem prime_341948486974166000522343609283189 : Nat.Prime 341948486974166000522343609283189 :=
  pratt 341948486974166000522343609283189 2 [(2, 2), (3, 3), (109, 1), (29047611873442575647497758179, 1)]
    (by simp only [List.forall_mem_cons, List.not_mem_nil, false_implies, implies_true, and_true]
        exact ⟨prime_2, prime_3, prime_109, prime_29047611873442575647497758179⟩)
    (by decide +kernel)

theorem prime_secpN' : Nat.Prime 115792089237316195423570985008687907852837564279074904382605163141518161494337 :=
  pratt 115792089237316195423570985008687907852837564279074904382605163141518161494337 7 [(2, 6), (3, 1), (149, 1), (631, 1), (107361793816595537, 1), (174723607534414371449, 1), (341948486974166000522343609283189, 1)]
    (by simp only [List.forall_mem_cons, List.not_mem_nil, false_implies, implies_true, and_true]
        exact ⟨prime_2, prime_3, prime_149, prime_631, prime_107361793816595537, prime_174723607534414371449, prime_341948486974166000522343609283189⟩)
    (by decide +kernel)

theorem prime_secpP : Nat.Prime secpP := prime_secpP'
theorem prime_secpN : Nat.Prime secpN := prime_secpN'

end Bitforge
