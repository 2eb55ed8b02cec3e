import Verif.Proofs.RefComplete

/-! # C80: how much the stacks grow -/

namespace Bitforge
open Spec
namespace Interpreter

/-- Number of elements on the two stacks. -/
def total (s : Ref.St) : Nat := s.stack.length + s.alt.length

theorem rearrange_grows {op : Nat} {l r : List Bytes} (h : Ref.rearrange op l = some r) :
    r.length ≤ l.length + Ref.adds op := by
  unfold Ref.rearrange at h
  split at h <;> cases h <;> simp [Ref.adds] <;> try omega
  split <;> simp

theorem result_grows {v ok : Bool} {s r : Ref.St} {l : List Bytes} (h : Ref.result v ok s l = some r) :
    total r ≤ l.length + 1 + s.alt.length := by
  unfold Ref.result at h
  split at h
  · split at h
    · cases h; simp [total]
    · cases h
  · cases h; simp [total]

theorem exec_grows {H : Hashes} {C : Ref.Checker} {flags op : Nat} {f : Bool} {after : List WireInstr} {s r : Ref.St}
    (h : Ref.exec H C flags op f after s = some r) : total r ≤ total s + Ref.adds op := by
  unfold Ref.exec at h
  extract_lets minimal at h
  rcases ite_some h with ⟨c, h⟩ | ⟨n1, h⟩
  · cases h; subst c; simp [total, Ref.adds]; omega
  rcases ite_some h with ⟨c, h⟩ | ⟨n2, h⟩
  · cases h; simp [total, Ref.adds, c.2]; omega
  rcases ite_some h with ⟨c, h⟩ | ⟨n3, h⟩
  · cases h; omega
  rcases ite_some h with ⟨c, h⟩ | ⟨n4, h⟩
  · rcases ite_some h with ⟨c', h⟩ | ⟨c', h⟩
    · split at h
      · cases h
      · split at h
        · cases h
        · rcases ite_some h with ⟨c', h⟩ | ⟨c', h⟩
          · cases h
          · rcases ite_some h with ⟨c', h⟩ | ⟨c', h⟩
            · cases h; omega
            · cases h
    · rcases ite_some h with ⟨c', h⟩ | ⟨c', h⟩
      · cases h
      · cases h; omega
  rcases ite_some h with ⟨c, h⟩ | ⟨n5, h⟩
  · rcases ite_some h with ⟨c', h⟩ | ⟨c', h⟩
    · cases h
    · cases h; omega
  rcases ite_some h with ⟨c, h⟩ | ⟨n6, h⟩
  · rcases ite_some h with ⟨c', h⟩ | ⟨c', h⟩
    · split at h
      · cases h
      · next hs => cases h; simp [total, hs]; omega
    · cases h; simp [total]
  rcases ite_some h with ⟨c, h⟩ | ⟨n7, h⟩
  · split at h
    · cases h
    · cases h; simp [total]
  rcases ite_some h with ⟨c, h⟩ | ⟨n8, h⟩
  · split at h
    · cases h
    · cases h; simp [total]
  rcases ite_some h with ⟨c, h⟩ | ⟨n9, h⟩
  · split at h
    · cases h
    · next hs =>
      rcases ite_some h with ⟨c', h⟩ | ⟨c', h⟩
      · cases h; simp [total, hs]; omega
      · cases h
  rcases ite_some h with ⟨c, h⟩ | ⟨n10, h⟩
  · split at h
    · cases h
    · next hs => cases h; simp [total, hs]; omega
  rcases ite_some h with ⟨c, h⟩ | ⟨n11, h⟩
  · split at h
    · cases h
    · next hs => cases h; simp [total, hs]; omega
  rcases ite_some h with ⟨c, h⟩ | ⟨n12, h⟩
  · split at h
    · next x y l hs =>
      split at h
      · cases h
      · next n _ =>
        rcases ite_some h with ⟨c', h⟩ | ⟨c', h⟩
        · cases h
        · split at h
          · cases h
          · cases h
            have : ((y :: l).eraseIdx n.toNat).length ≤ l.length + 1 := by
              rw [List.length_eraseIdx]; split <;> simp
            simp only [total, hs, List.length_cons]
            split <;> simp only [List.length_cons] at * <;> omega
    · cases h
  rcases ite_some h with ⟨c, h⟩ | ⟨n13, h⟩
  · split at h
    · next hs =>
      have := result_grows h
      simp only [total, hs, List.length_cons] at *
      omega
    · cases h
  rcases ite_some h with ⟨c, h⟩ | ⟨n14, h⟩
  · split at h
    · cases h
    · next hs =>
      split at h
      · cases h
      · rw [Option.map_eq_some_iff] at h
        obtain ⟨_, _, rfl⟩ := h
        simp [total, hs]
  rcases ite_some h with ⟨c, h⟩ | ⟨n15, h⟩
  · split at h
    · next hs =>
      split at h
      · split at h
        · cases h
        · rcases ite_some h with ⟨c', h⟩ | ⟨c', h⟩
          · rcases ite_some h with ⟨c', h⟩ | ⟨c', h⟩
            · cases h; simp [total, hs]; omega
            · cases h
          · cases h; simp [total, hs]; omega
      · cases h
    · cases h
  rcases ite_some h with ⟨c, h⟩ | ⟨n16, h⟩
  · split at h
    · next hs =>
      split at h
      · cases h; simp [total, hs]; omega
      · cases h
    · cases h
  rcases ite_some h with ⟨c, h⟩ | ⟨n17, h⟩
  · split at h
    · cases h
    · next hs =>
      rw [Option.map_eq_some_iff] at h
      obtain ⟨_, _, rfl⟩ := h
      simp [total, hs]
  rcases ite_some h with ⟨c, h⟩ | ⟨n18, h⟩
  · cases h; simp [total]
  rcases ite_some h with ⟨c, h⟩ | ⟨n19, h⟩
  · split at h
    · next hs =>
      split at h
      · cases h
      · have := result_grows h
        simp only [total, hs, List.length_cons] at *
        omega
    · cases h
  rcases ite_some h with ⟨c, h⟩ | ⟨n20, h⟩
  · split at h
    · cases h
    · next x l hs =>
      split at h
      · cases h
      · next n _ =>
        rcases ite_some h with ⟨c', h⟩ | ⟨c', h⟩
        · cases h
        · extract_lets s' at h
          rcases ite_some h with ⟨c', h⟩ | ⟨c', h⟩
          · cases h
          · split at h
            · cases h
            · next y l' hl =>
              split at h
              · cases h
              · next m _ =>
                rcases ite_some h with ⟨c', h⟩ | ⟨c', h⟩
                · cases h
                · split at h
                  · cases h
                  · next d l'' hl' =>
                    extract_lets sigs at h
                    split at h
                    · cases h
                    · rcases ite_some h with ⟨c', h⟩ | ⟨c', h⟩
                      · cases h
                      · have := result_grows h
                        have h1 := congrArg List.length hl
                        have h2 := congrArg List.length hl'
                        have h3 : s'.alt = s.alt := rfl
                        simp only [List.length_drop, List.length_cons] at h1 h2
                        simp only [total, hs, List.length_cons] at *
                        rw [h3] at this
                        omega
  · rw [Option.map_eq_some_iff] at h
    obtain ⟨l, hl, rfl⟩ := h
    have := rearrange_grows hl
    simp only [total]
    omega

theorem act_grows {H : Hashes} {C : Ref.Checker} {flags : Nat} {i : WireInstr} {after : List WireInstr} {s r : Ref.St}
    (h : Ref.act H C flags i after s = some r) : total r ≤ total s + Ref.adds i.1.val := by
  unfold Ref.act at h
  extract_lets op data fExec v at h
  have hv : total v = total s := by
    show total (if op > 96 then _ else _) = _
    split <;> rfl
  rcases ite_some h with ⟨_, h⟩ | ⟨_, h⟩
  · cases h
  rcases ite_some h with ⟨_, h⟩ | ⟨_, h⟩
  · cases h
  rcases ite_some h with ⟨_, h⟩ | ⟨_, h⟩
  · cases h
  rcases ite_some h with ⟨c, h⟩ | ⟨_, h⟩
  · rcases ite_some h with ⟨_, h⟩ | ⟨_, h⟩
    · cases h
    · cases h
      have ho : i.1.val ≤ 78 := c.2
      rw [← hv]
      simp only [total, List.length_cons, Ref.adds]
      rw [if_pos (by omega)]
      omega
  rcases ite_some h with ⟨_, h⟩ | ⟨_, h⟩
  · rw [← hv]
    exact exec_grows h
  · simp only [Option.some.injEq] at h
    rw [← h]
    omega

end Interpreter
end Bitforge
