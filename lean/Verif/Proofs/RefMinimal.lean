import Verif.Proofs.RefSound

/-! # C80: when numbers have to be minimal, they are -/

namespace Bitforge
open Spec
namespace Interpreter

theorem num_fits (n : Int) : Fits (num n) := .inr ((minimalNumber_iff _).2 (minimalTest_encode n))

theorem bool_fits (b : Bool) : Fits (boolBytes b) := by cases b <;> exact .inr (by decide)

/-- An element from before, or one that fits. -/
def FitsKept (s : State) (d : Data) : Prop := d ∈ s.stack ∨ d ∈ s.altstack ∨ Fits d

structure KeepsFits (s t : State) : Prop where
  stack : ∀ d ∈ t.stack, FitsKept s d
  altstack : ∀ d ∈ t.altstack, FitsKept s d

theorem KeepsFits.of_sub {s t : State} (h2 : ∀ d ∈ t.stack, d ∈ s.stack) (h3 : t.altstack = s.altstack) : KeepsFits s t :=
  ⟨fun d hd => .inl (h2 d hd), fun d hd => .inr (.inl (h3 ▸ hd))⟩

theorem KeepsFits.of_same {s t : State} (h2 : t.stack = s.stack) (h3 : t.altstack = s.altstack) : KeepsFits s t :=
  .of_sub (by rw [h2]; exact fun _ h => h) h3

theorem KeepsFits.of_new {s t : State} {x : Data} {r : List Data} (h1 : t.stack = x :: r) (h3 : FitsKept s x)
    (h4 : ∀ d ∈ r, d ∈ s.stack) (h5 : t.altstack = s.altstack) : KeepsFits s t := by
  refine ⟨fun d hd => ?_, fun d hd => .inr (.inl (h5 ▸ hd))⟩
  rw [h1] at hd
  rcases List.mem_cons.1 hd with rfl | hd
  · exact h3
  · exact .inl (h4 d hd)

theorem stackOp_keeps {op : Nat} {s : State} {st' : List Data} (h : stackOp op s.stack = some st')
    (ho : 109 ≤ op ∧ op ≤ 120 ∨ 123 ≤ op ∧ op ≤ 125 ∨ op = 130) : KeepsFits s { s with stack := st' } := by
  obtain ⟨st, al, pc, pb, nc, vf, er, fl, sc⟩ := s
  simp only at h
  have key : ∀ d ∈ st', d ∈ st ∨ ∃ n : Int, d = num n := by
    have ho' : op = 109 ∨ op = 110 ∨ op = 111 ∨ op = 112 ∨ op = 113 ∨ op = 114 ∨ op = 115 ∨ op = 116 ∨ op = 117 ∨
      op = 118 ∨ op = 119 ∨ op = 120 ∨ op = 123 ∨ op = 124 ∨ op = 125 ∨ op = 130 := by omega
    rcases ho' with rfl | rfl | rfl | rfl | rfl | rfl | rfl | rfl | rfl | rfl | rfl | rfl | rfl | rfl | rfl | rfl
    all_goals
      simp only [stackOp, Nat.reduceEqDiff, if_true, if_false] at h
      try split at h
    all_goals first
      | (cases h; done)
      | (cases h
         intro d hd
         simp at hd ⊢
         grind [List.mem_of_mem_tail])
  refine ⟨fun d hd => ?_, fun d hd => .inr (.inl hd)⟩
  rcases key d hd with h | ⟨n, rfl⟩
  · exact .inl h
  · exact .inr (.inr (num_fits n))

theorem exec_fits {H : Hashes} {s t : State} {op : Nat} (h : exec H s op true = .next t) : KeepsFits s t := by
  have hif : ∀ b, opIf s true b = .next t → KeepsFits s t := by
    intro b h
    unfold opIf at h
    rw [if_pos rfl] at h
    split at h
    · exact absurd h fail_ne
    · next x r hs =>
      cases h
      exact .of_sub (fun d hd => by rw [hs]; exact List.mem_cons_of_mem _ hd) rfl
  have hms : ∀ v, checkMultisig s (flag s MINIMALDATA) v = .next t → KeepsFits s t := by
    intro v h
    obtain ⟨_, _, ha, _, _, _, _, y, r, dummy, _, _, hd, _, ht⟩ := checkMultisig_next h
    have hmem : ∀ d ∈ r, d ∈ s.stack := fun d hr => List.mem_of_mem_drop (hd ▸ List.mem_cons_of_mem _ hr)
    have hlen : r.length + 1 ≤ s.stack.length := by
      have := congrArg List.length hd
      rw [List.length_drop, List.length_cons] at this
      omega
    cases v
    · exact .of_new (by simpa using ht) (.inr (.inr (bool_fits _))) hmem ha
    · simp only [if_true] at ht
      exact .of_sub (by rw [ht]; exact hmem) ha
  have hpr : ∀ m r, pickRoll s m r = .next t → KeepsFits s t := by
    intro m r h
    unfold pickRoll at h
    split at h
    · next x y q hs =>
      simp only [] at h
      split at h
      · cases h
      · next n hn =>
        split at h
        · exact absurd h fail_ne
        · split at h
          · cases h
          · next d hd =>
            cases h
            have hmem : d ∈ y :: q := List.mem_of_getElem? hd
            have hlen : ((y :: q).eraseIdx n.toNat).length ≤ (y :: q).length := by
              rw [List.length_eraseIdx]; split <;> omega
            refine .of_new rfl (.inl ?_) ?_ rfl
            · rw [hs]; exact List.mem_cons_of_mem _ hmem
            · intro e he
              rw [hs]
              cases r
              · exact List.mem_cons_of_mem _ he
              · exact List.mem_cons_of_mem _ (List.mem_of_mem_eraseIdx he)
    · exact absurd h fail_ne
  have heq : ∀ v, opEqual s v = .next t → KeepsFits s t := by
    intro v h
    unfold opEqual at h
    split at h
    · next x2 x1 r hs =>
      simp only [] at h
      have hm : ∀ d ∈ r, d ∈ s.stack := fun d hd => by rw [hs]; simp [hd]
      split at h
      · split at h
        · cases h; exact .of_sub hm rfl
        · exact absurd h fail_ne
      · cases h; exact .of_new rfl (.inr (.inr (bool_fits _))) hm rfl
    · exact absurd h fail_ne
  unfold exec at h
  extract_lets at h
  rcases ite_next h with ⟨ho, h⟩ | ⟨_, h⟩
  · cases h
    exact .of_new (x := num ((op : Int) - (81 - 1))) (r := s.stack) rfl (.inr (.inr (num_fits _))) (fun _ h => h) rfl
  rcases ite_next h with ⟨ho, h⟩ | ⟨_, h⟩
  · cases h; exact .of_same rfl rfl
  rcases ite_next h with ⟨ho, h⟩ | ⟨_, h⟩
  · exact absurd h (checkLockTimeVerify_ne _ _ _)
  rcases ite_next h with ⟨ho, h⟩ | ⟨_, h⟩
  · split at h
    · exact absurd h fail_ne
    · cases h; exact .of_same rfl rfl
  rcases ite_next h with ⟨ho, h⟩ | ⟨_, h⟩
  · exact hif _ h
  rcases ite_next h with ⟨ho, h⟩ | ⟨_, h⟩
  · exact hif _ h
  rcases ite_next h with ⟨ho, h⟩ | ⟨_, h⟩
  · unfold opElse at h
    split at h
    · exact absurd h fail_ne
    · cases h; exact .of_same rfl rfl
  rcases ite_next h with ⟨ho, h⟩ | ⟨_, h⟩
  · unfold opEndif at h
    split at h
    · exact absurd h fail_ne
    · cases h; exact .of_same rfl rfl
  rcases ite_next h with ⟨ho, h⟩ | ⟨_, h⟩
  · unfold opVerify at h
    split at h
    · exact absurd h fail_ne
    · next x r hs =>
      split at h
      · cases h; exact .of_sub (fun d hd => by rw [hs]; exact List.mem_cons_of_mem _ hd) rfl
      · exact absurd h fail_ne
  rcases ite_next h with ⟨ho, h⟩ | ⟨_, h⟩
  · exact absurd h fail_ne
  rcases ite_next h with ⟨ho, h⟩ | ⟨_, h⟩
  · unfold toAltStack at h
    split at h
    · exact absurd h fail_ne
    · next x r hs =>
      cases h
      refine ⟨fun d hd => .inl (by rw [hs]; exact List.mem_cons_of_mem _ hd), fun d hd => ?_⟩
      rcases List.mem_cons.1 hd with rfl | hd
      · exact .inl (by rw [hs]; exact List.mem_cons_self)
      · exact .inr (.inl hd)
  rcases ite_next h with ⟨ho, h⟩ | ⟨_, h⟩
  · unfold fromAltStack at h
    split at h
    · exact absurd h fail_ne
    · next x r hs =>
      cases h
      refine ⟨fun d hd => ?_, fun d hd => .inr (.inl (by rw [hs]; exact List.mem_cons_of_mem _ hd))⟩
      rcases List.mem_cons.1 hd with rfl | hd
      · exact .inr (.inl (by rw [hs]; exact List.mem_cons_self))
      · exact .inl hd
  rcases ite_next h with ⟨ho, h⟩ | ⟨_, h⟩
  · split at h
    · exact absurd h fail_ne
    · next st hst => cases h; exact stackOp_keeps hst ho
  rcases ite_next h with ⟨ho, h⟩ | ⟨_, h⟩
  · exact hpr _ _ h
  rcases ite_next h with ⟨ho, h⟩ | ⟨_, h⟩
  · exact hpr _ _ h
  rcases ite_next h with ⟨ho, h⟩ | ⟨_, h⟩
  · exact heq _ h
  rcases ite_next h with ⟨ho, h⟩ | ⟨_, h⟩
  · exact heq _ h
  rcases ite_next h with ⟨ho, h⟩ | ⟨_, h⟩
  · unfold opUnary at h
    split at h
    · exact absurd h fail_ne
    · next x r hs =>
      split at h
      · cases h
      · next n hn =>
        cases h
        exact .of_new rfl (.inr (.inr (num_fits _)))
          (fun d hd => by rw [hs]; exact List.mem_cons_of_mem _ hd) rfl
  rcases ite_next h with ⟨ho, h⟩ | ⟨_, h⟩
  · unfold opBinary at h
    split at h
    · next x2 x1 r hs =>
      have hm : ∀ d ∈ r, d ∈ s.stack := fun d hd => by rw [hs]; simp [hd]
      split at h
      · cases h
      · next a ha =>
        split at h
        · cases h
        · next b hb =>
          simp only [] at h
          split at h
          · split at h
            · cases h; exact .of_sub hm rfl
            · exact absurd h fail_ne
          · cases h
            exact .of_new rfl
              (.inr (.inr (num_fits _))) hm rfl
    · exact absurd h fail_ne
  rcases ite_next h with ⟨ho, h⟩ | ⟨_, h⟩
  · unfold opWithin at h
    split at h
    · next x3 x2 x1 r hs =>
      split at h
      · cases h
      · split at h
        · cases h
        · split at h
          · cases h
          · cases h
            exact .of_new rfl (.inr (.inr (bool_fits _)))
              (fun d hd => by rw [hs]; simp [hd]) rfl
    · exact absurd h fail_ne
  rcases ite_next h with ⟨ho, h⟩ | ⟨_, h⟩
  · unfold opHash at h
    split at h
    · exact absurd h fail_ne
    · next x r hs =>
      split at h
      · cases h
      · next d hd =>
        cases h
        refine .of_new rfl (.inr (.inr (.inl ?_))) (fun d hd => by rw [hs]; exact List.mem_cons_of_mem _ hd) rfl
        unfold hashOp at hd
        split at hd
        · cases hd; simp [H.ripemd160_length]
        split at hd
        · cases hd; simp [H.sha1_length]
        split at hd
        · cases hd; simp [H.sha256_length]
        split at hd
        · cases hd
        · cases hd; simp [H.sha256_length]
  rcases ite_next h with ⟨ho, h⟩ | ⟨_, h⟩
  · cases h; exact .of_same rfl rfl
  rcases ite_next h with ⟨ho, h⟩ | ⟨_, h⟩
  · exact absurd h (checkSig_ne _ _)
  rcases ite_next h with ⟨ho, h⟩ | ⟨_, h⟩
  · exact hms _ h
  rcases ite_next h with ⟨ho, h⟩ | ⟨_, h⟩
  · exact hms _ h
  · exact absurd h fail_ne

/-- A push that passes the test is of nothing or of more than 75 bytes. -/
theorem minimalPush_fits {i : Instruction} (ho : opOf i ≤ 78) (h : i.isMinimalPush = .ok true) : Fits (pushed i) := by
  unfold Instruction.isMinimalPush at h
  unfold pushed
  cases hd : i.data with
  | none => exact bool_fits _
  | some d =>
    rw [hd] at h
    simp only [] at h ⊢
    cases hv : d.val with
    | nil => rw [if_pos rfl]; exact bool_fits _
    | cons b rest =>
      rw [if_neg (by simp)]
      rw [hv] at h
      simp only [] at h
      split at h
      · next hc =>
        have h : ((i.opcode.number.val : Int) == 81 + Instruction.firstValue d b - 1) = true := by injection h
        rw [beq_iff_eq] at h
        have : (opOf i : Int) = i.opcode.number.val := rfl
        omega
      split at h
      · have h : (i.opcode == Opcode.num 79) = true := by injection h
        have h := eq_of_beq h
        have : opOf i = 79 := by unfold opOf; rw [h]; rfl
        omega
      split at h
      · cases h
      next hl =>
      exact .inl (by rw [hv]; omega)

/-- A step keeps the numbers minimal. -/
theorem step_fits {H : Hashes} {s t : State} {i : Instruction} (st : Stepped H s i t) (hm : s.flags.testBit 6 = true)
    (h : ∀ d ∈ s.stack ++ s.altstack, Fits d) : ∀ d ∈ t.stack ++ t.altstack, Fits d := by
  have hk : KeepsFits s t := by
    by_cases hx : Executing s
    swap
    · obtain ⟨h1, h2, _⟩ := st.skipped hx
      exact .of_same h1 h2
    by_cases ho : opOf i ≤ 78
    · obtain ⟨h1, h2, h3⟩ := st.push hx ho
      exact .of_new h1 (.inr (.inr (minimalPush_fits ho (h3 hm)))) (fun _ h => h) h2
    · obtain ⟨_, _, _, _, _, e6, e7, _⟩ := enter_eq s i
      have hg := exec_fits (st.run hx (by omega))
      have hs : ∀ d, FitsKept (enter s i) d → FitsKept s d := by
        intro d h; unfold FitsKept at h ⊢; rw [e6, e7] at h; exact h
      exact ⟨fun d hd => hs d (hg.stack d hd), fun d hd => hs d (hg.altstack d hd)⟩
  have key : ∀ d, FitsKept s d → Fits d := by
    rintro d (hd | hd | hd)
    · exact h d (List.mem_append_left _ hd)
    · exact h d (List.mem_append_right _ hd)
    · exact hd
  intro d hd
  rcases List.mem_append.1 hd with hd | hd
  · exact key d (hk.stack d hd)
  · exact key d (hk.altstack d hd)

/-- A run keeps the numbers minimal. -/
theorem runs_fits {H : Hashes} {s t : State} {tr : List (State × Instruction)} (hr : Runs H s tr t)
    (hm : s.flags.testBit 6 = true) (h : ∀ d ∈ s.stack ++ s.altstack, Fits d) :
    ∀ d ∈ t.stack ++ t.altstack, Fits d := by
  induction hr with
  | nil s => exact h
  | @cons s t u i tr hi hs hr ih =>
    obtain ⟨i', st⟩ := step_next hs
    exact ih (by rw [st.flags]; exact hm) (step_fits st hm h)

end Interpreter
end Bitforge
