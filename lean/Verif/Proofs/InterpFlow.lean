import Verif.Proofs.Interp

/-! # Conditionals, and single steps -/

namespace Bitforge
namespace Interpreter

/-- Blocks closed one after another: `n` blocks are open. -/
def Nest : Nat → List Nat → Prop
  | 0, l => Balanced false l
  | n + 1, l => ∃ a r, l = a ++ 104 :: r ∧ Balanced true a ∧ Nest n r

theorem nest_plain {op : Nat} (ho : op ∉ [99, 100, 103, 104]) : ∀ {n : Nat} {l : List Nat}, Nest n l → Nest n (op :: l)
  | 0, _, h => .plain ho h
  | _ + 1, _, ⟨a, r, e, ha, hr⟩ => ⟨op :: a, r, by rw [e]; rfl, .plain ho ha, hr⟩

theorem nest_open {op : Nat} (ho : op = 99 ∨ op = 100) : ∀ {n : Nat} {l : List Nat}, Nest (n + 1) l → Nest n (op :: l)
  | 0, _, ⟨a, r, e, ha, hr⟩ => by rw [e]; exact .block ho ha hr
  | _ + 1, _, ⟨a, r, e, ha, ⟨a', r', e', ha', hr'⟩⟩ =>
    ⟨op :: a ++ 104 :: a', r', by rw [e, e']; simp, .block ho ha ha', hr'⟩

theorem nest_else {n : Nat} {l : List Nat} : Nest (n + 1) l → Nest (n + 1) (103 :: l)
  | ⟨a, r, e, ha, hr⟩ => ⟨103 :: a, r, by rw [e]; rfl, .els ha, hr⟩

theorem nest_close {n : Nat} {l : List Nat} (h : Nest n l) : Nest (n + 1) (104 :: l) := ⟨[], l, rfl, .nil _, h⟩

theorem runs_nest {H : Hashes} {s t : State} {tr : List (State × Instruction)} (h : Runs H s tr t) (ht : t.vfExec = []) :
    Nest s.vfExec.length (tr.map fun p => opOf p.2) := by
  induction h with
  | nil s => rw [ht]; exact .nil _
  | @cons s t u i tr hi hs hr ih =>
    obtain ⟨i', st⟩ := step_next hs
    have : i' = i := by have := st.fetched; rw [hi] at this; cases this; rfl
    subst this
    have ih := ih ht
    have hv := st.vf
    rw [List.map_cons]
    unfold VfStep at hv
    split at hv
    · next ho =>
      obtain ⟨b, e, _⟩ := hv
      rw [e, List.length_cons] at ih
      exact nest_open ho ih
    · split at hv
      · next ho =>
        obtain ⟨b, bs, e1, e2⟩ := hv
        rw [e2, List.length_cons] at ih
        rw [e1, List.length_cons]
        simp only [ho]
        exact nest_else ih
      · split at hv
        · next ho =>
          obtain ⟨b, e⟩ := hv
          rw [e, List.length_cons]
          simp only [ho]
          exact nest_close ih
        · rw [hv] at ih
          refine nest_plain ?_ ih
          simp only [List.mem_cons, List.not_mem_nil, or_false, not_or]
          omega

theorem runs_append {H : Hashes} {s u : State} {a b : List (State × Instruction)} (h : Runs H s (a ++ b) u) :
    ∃ t, Runs H s a t ∧ Runs H t b u := by
  induction a generalizing s with
  | nil => exact ⟨s, .nil s, h⟩
  | cons p a ih =>
    cases h with
    | cons hi hs hr =>
      obtain ⟨t, h1, h2⟩ := ih hr
      exact ⟨t, .cons hi hs h1, h2⟩

/-- Splitting a run along its opcodes. -/
theorem runs_split {H : Hashes} {s u : State} {tr : List (State × Instruction)} {a b : List Nat} (h : Runs H s tr u)
    (he : tr.map (fun p => opOf p.2) = a ++ b) : ∃ t t1 t2, tr = t1 ++ t2 ∧ Runs H s t1 t ∧ Runs H t t2 u ∧
      t1.map (fun p => opOf p.2) = a ∧ t2.map (fun p => opOf p.2) = b := by
  obtain ⟨t1, t2, e, e1, e2⟩ := List.map_eq_append_iff.1 he
  subst e
  obtain ⟨t, h1, h2⟩ := runs_append h
  exact ⟨t, t1, t2, rfl, h1, h2, e1, e2⟩

theorem runs_one {H : Hashes} {s u : State} {tr : List (State × Instruction)} {op : Nat} {l : List Nat} (h : Runs H s tr u)
    (he : tr.map (fun p => opOf p.2) = op :: l) : ∃ i t tr', tr = (s, i) :: tr' ∧ opOf i = op ∧ Stepped H s i t ∧
      Runs H t tr' u ∧ tr'.map (fun p => opOf p.2) = l := by
  cases h with
  | nil => cases he
  | @cons _ t _ i tr' hi hs hr =>
    obtain ⟨i', st⟩ := step_next hs
    have : i' = i := by have := st.fetched; rw [hi] at this; cases this; rfl
    subst this
    rw [List.map_cons] at he
    cases he
    exact ⟨i', t, tr', rfl, rfl, st, hr, rfl⟩

/-- A balanced run leaves the enclosing conditionals alone; the innermost changes only if OP_ELSE is allowed. -/
theorem runs_balanced {H : Hashes} {b : Bool} {l : List Nat} (hb : Balanced b l) : ∀ {s t : State}
    {tr : List (State × Instruction)}, Runs H s tr t → tr.map (fun p => opOf p.2) = l →
    (b = false → t.vfExec = s.vfExec) ∧ (b = true → ∀ c cs, s.vfExec = c :: cs → ∃ c', t.vfExec = c' :: cs) := by
  induction hb with
  | nil b =>
    intro s t tr h he
    have : tr = [] := by simpa using he
    subst this
    cases h
    exact ⟨fun _ => rfl, fun _ c cs e => ⟨c, e⟩⟩
  | @plain b op l ho hl ih =>
    intro s t tr h he
    obtain ⟨i, s1, tr', rfl, hop, st, hr, he'⟩ := runs_one h he
    have hv := st.vf
    unfold VfStep at hv
    simp only [List.mem_cons, List.not_mem_nil, or_false, not_or] at ho
    rw [if_neg (by omega), if_neg (by omega), if_neg (by omega)] at hv
    obtain ⟨h1, h2⟩ := ih hr he'
    rw [hv] at h1 h2
    exact ⟨h1, h2⟩
  | @els l hl ih =>
    intro s t tr h he
    obtain ⟨i, s1, tr', rfl, hop, st, hr, he'⟩ := runs_one h he
    have hv := st.vf
    unfold VfStep at hv
    rw [if_neg (by omega), if_pos hop] at hv
    obtain ⟨c, cs, e1, e2⟩ := hv
    obtain ⟨_, h2⟩ := ih hr he'
    refine ⟨by simp, ?_⟩
    intro _ d ds e
    rw [e1] at e
    cases e
    exact h2 rfl _ _ e2
  | @block b op body l ho hbody hl ih1 ih2 =>
    intro s t tr h he
    rw [List.cons_append] at he
    obtain ⟨i, s1, tr', rfl, hop, st, hr, he'⟩ := runs_one h he
    obtain ⟨s2, t1, t2, rfl, r1, r2, m1, m2⟩ := runs_split hr he'
    obtain ⟨i2, s3, tr'', rfl, hop2, st2, hr2, he2⟩ := runs_one r2 m2
    have hv := st.vf
    unfold VfStep at hv
    rw [if_pos (by omega)] at hv
    obtain ⟨c, e, _⟩ := hv
    obtain ⟨c', e'⟩ := (ih1 r1 m1).2 rfl _ _ e
    have hv2 := st2.vf
    unfold VfStep at hv2
    rw [if_neg (by omega), if_neg (by omega), if_pos hop2, e'] at hv2
    obtain ⟨d, e2⟩ := hv2
    have hs3 : s3.vfExec = s.vfExec := (List.cons.inj e2).2.symm
    have := ih2 hr2 he2
    rwa [hs3] at this

/-- A balanced run inside a branch not taken leaves the stacks alone. -/
theorem runs_skip {H : Hashes} {b : Bool} {l : List Nat} (hb : Balanced b l) : ∀ {s t : State}
    {tr : List (State × Instruction)}, Runs H s tr t → tr.map (fun p => opOf p.2) = l →
    (b = false → false ∈ s.vfExec) → (b = true → ∃ c cs, s.vfExec = c :: cs ∧ false ∈ cs) →
    t.stack = s.stack ∧ t.altstack = s.altstack := by
  induction hb with
  | nil b =>
    intro s t tr h he _ _
    have : tr = [] := by simpa using he
    subst this
    cases h
    exact ⟨rfl, rfl⟩
  | @plain b op l ho hl ih =>
    intro s t tr h he hf ht
    obtain ⟨i, s1, tr', rfl, hop, st, hr, he'⟩ := runs_one h he
    have hv := st.vf
    unfold VfStep at hv
    simp only [List.mem_cons, List.not_mem_nil, or_false, not_or] at ho
    rw [if_neg (by omega), if_neg (by omega), if_neg (by omega)] at hv
    have hx : ¬ Executing s := by
      unfold Executing
      rw [not_not]
      cases b with
      | false => exact hf rfl
      | true => obtain ⟨c, cs, e, m⟩ := ht rfl; rw [e]; exact List.mem_cons_of_mem _ m
    obtain ⟨a1, a2, _⟩ := st.skipped hx
    obtain ⟨b1, b2⟩ := ih hr he' (by rw [hv]; exact hf) (by rw [hv]; exact ht)
    exact ⟨b1.trans a1, b2.trans a2⟩
  | @els l hl ih =>
    intro s t tr h he _ ht
    obtain ⟨i, s1, tr', rfl, hop, st, hr, he'⟩ := runs_one h he
    have hv := st.vf
    unfold VfStep at hv
    rw [if_neg (by omega), if_pos hop] at hv
    obtain ⟨c, cs, e1, e2⟩ := hv
    obtain ⟨d, ds, e, m⟩ := ht rfl
    rw [e1] at e
    cases e
    have hx : ¬ Executing s := by
      unfold Executing; rw [not_not, e1]; exact List.mem_cons_of_mem _ m
    obtain ⟨a1, a2, _⟩ := st.skipped hx
    obtain ⟨b1, b2⟩ := ih hr he' (by simp) (fun _ => ⟨_, _, e2, m⟩)
    exact ⟨b1.trans a1, b2.trans a2⟩
  | @block b op body l ho hbody hl ih1 ih2 =>
    intro s t tr h he hf ht
    rw [List.cons_append] at he
    obtain ⟨i, s1, tr', rfl, hop, st, hr, he'⟩ := runs_one h he
    obtain ⟨s2, t1, t2, rfl, r1, r2, m1, m2⟩ := runs_split hr he'
    obtain ⟨i2, s3, tr'', rfl, hop2, st2, hr2, he2⟩ := runs_one r2 m2
    have hm : false ∈ s.vfExec := by
      cases b with
      | false => exact hf rfl
      | true => obtain ⟨c, cs, e, m⟩ := ht rfl; rw [e]; exact List.mem_cons_of_mem _ m
    have hx : ¬ Executing s := by unfold Executing; rw [not_not]; exact hm
    have hv := st.vf
    unfold VfStep at hv
    rw [if_pos (by omega)] at hv
    obtain ⟨c, e, _⟩ := hv
    obtain ⟨c', e'⟩ := (runs_balanced hbody r1 m1).2 rfl _ _ e
    have hx2 : ¬ Executing s2 := by unfold Executing; rw [not_not, e']; exact List.mem_cons_of_mem _ hm
    have hv2 := st2.vf
    unfold VfStep at hv2
    rw [if_neg (by omega), if_neg (by omega), if_pos hop2, e'] at hv2
    obtain ⟨d, e2⟩ := hv2
    have hs3 : s3.vfExec = s.vfExec := (List.cons.inj e2).2.symm
    obtain ⟨a1, a2, _⟩ := st.skipped hx
    obtain ⟨b1, b2⟩ := ih1 r1 m1 (by simp) (fun _ => ⟨_, _, e, hm⟩)
    obtain ⟨c1, c2, _⟩ := st2.skipped hx2
    obtain ⟨d1, d2⟩ := ih2 hr2 he2 (by rw [hs3]; exact hf) (by rw [hs3]; exact ht)
    exact ⟨d1.trans (c1.trans (b1.trans a1)), d2.trans (c2.trans (b2.trans a2))⟩

/-! ## Single steps -/

/-- The next instruction has this opcode, and nothing but the opcode decides what happens. -/
structure Ready (s : State) (i : Instruction) : Prop where
  fetched : s.script[s.pc]? = some i
  executing : Executing s
  size : dataLen i ≤ 520
  limit : s.nopCount < 201

theorem disabled_iff (op : Nat) : op ∈ disabled ↔ IsDisabled op := by
  unfold disabled IsDisabled
  simp only [List.mem_cons, List.not_mem_nil, or_false]
  omega

theorem step_ready {H : Hashes} {s : State} {i : Instruction} (h : Ready s i) (h1 : opOf i > 78) (h2 : ¬ IsDisabled (opOf i)) :
    step H s = exec H (enter s i) (opOf i) true := by
  rw [step_eq, h.fetched]
  have hsz := h.size
  have hl := h.limit
  simp only []
  rw [if_neg (by omega), if_neg (by omega)]
  unfold dispatch
  extract_lets op fExec pu
  have hf : fExec = true := (executing_iff (enter s i)).2 (by
    have := h.executing
    unfold Executing
    rw [(enter_eq s i).2.2.2.2.1]
    exact this)
  have hop : op = opOf i := rfl
  clear_value op fExec pu
  subst hop hf
  rw [if_neg (by rw [disabled_iff]; exact h2), if_neg (by omega), if_pos (.inl rfl)]

/-- An executed opcode that must not be executed. -/
theorem exec_forbidden {H : Hashes} {s : State} {op : Nat} (h : Forbidden op) (f : Bool) (hlt : op < 256) :
    ∃ e, exec H s op f = fail s e := by
  unfold Forbidden at h
  by_cases hb : 186 ≤ op
  · refine ⟨.badOpcode, ?_⟩
    unfold exec
    extract_lets
    rw [if_neg (by omega), if_neg (by omega), if_neg (by omega), if_neg (by omega), if_neg (by omega), if_neg (by omega),
      if_neg (by omega), if_neg (by omega), if_neg (by omega), if_neg (by omega), if_neg (by omega), if_neg (by omega),
      if_neg (by omega), if_neg (by omega), if_neg (by omega), if_neg (by omega), if_neg (by omega),
      if_neg (by simp only [List.mem_cons, List.not_mem_nil, or_false]; omega),
      if_neg (by simp only [List.mem_cons, List.not_mem_nil, or_false]; omega), if_neg (by omega), if_neg (by omega),
      if_neg (by omega), if_neg (by omega), if_neg (by omega), if_neg (by omega)]
  · have : op = 106 ∨ op = 80 ∨ op = 98 ∨ op = 101 ∨ op = 102 ∨ op = 137 ∨ op = 138 := by omega
    rcases this with rfl | rfl | rfl | rfl | rfl | rfl | rfl
    · exact ⟨.opReturn, rfl⟩
    all_goals exact ⟨.badOpcode, rfl⟩

end Interpreter
end Bitforge
