import Verif.Props.InOut

/-! # C75: `Input.create` and `Output.create` choose the class by the template of the script -/

namespace Bitforge
open Spec

/-- The template that a script matches. -/
def Script.Is (s : Script) (t : Template) : Prop := Matches t (shape (s.instructions.map Instruction.wire))

theorem create_template (s : Script) (t : Template) (h : s.Is t) :
    ∃ c, Script.create s.instructions = .ok ⟨c, s.instructions⟩ ∧ c.template = some t := by
  obtain ⟨c, hc, ht⟩ := C32_classify_complete _ _ h
  exact ⟨c, by unfold Script.create; rw [hc], ht⟩

theorem create_ok {s r : Script} (h : Script.create s.instructions = .ok r) :
    r.instructions = s.instructions ∧ ∀ t, r.cls.template = some t ↔ s.Is t := by
  unfold Script.create at h
  split at h
  · cases h
  · next c hc => cases h; exact ⟨rfl, C32_classify_exact _ c hc⟩

/-- C75, part that holds: `Input.create` makes an AddressInput of a script with the template of PayToPubkeyIn, a
ScriptInput of one with the template of PayToScriptIn, of the fields given.  Missing: all other scripts, which make no
input (see the refutation). -/
theorem C75_input_partial (id : Text) (ix seq : Int) (s : Script) :
    (s.Is .p2pkhIn → Input.create id ix s seq = .ok ⟨.address, id, ix, ⟨.payToPubkeyIn, s.instructions⟩, seq⟩) ∧
    (s.Is .p2shIn → Input.create id ix s seq = .ok ⟨.script, id, ix, ⟨.payToScriptIn, s.instructions⟩, seq⟩) := by
  constructor
  all_goals
    intro h
    obtain ⟨c, hc, ht⟩ := create_template s _ h
    unfold Input.create
    rw [hc]
    cases c <;> simp [ScriptClass.template] at ht ⊢

/-- C75 is false of the code: every other script is an exception, NameError if the script can be classified. -/
theorem C75_input_refuted (id : Text) (ix seq : Int) (s : Script) (h1 : ¬ s.Is .p2pkhIn) (h2 : ¬ s.Is .p2shIn) :
    ∃ e, Input.create id ix s seq = .error e ∧
      ((∃ r, Script.create s.instructions = .ok r) → e = .nameError) := by
  cases hc : Script.create s.instructions with
  | error e => exact ⟨e, by unfold Input.create; rw [hc], by rintro ⟨r, hr⟩; cases hr⟩
  | ok r =>
    obtain ⟨_, hr⟩ := create_ok hc
    refine ⟨.nameError, ?_, fun _ => rfl⟩
    unfold Input.create
    rw [hc]
    simp only []
    rw [if_neg, if_neg]
    · intro e; exact h2 ((hr _).1 (by rw [e]; rfl))
    · intro e; exact h1 ((hr _).1 (by rw [e]; rfl))

/-- C75. `Output.create` keeps the amount and the instructions, and chooses the class by the template; it raises exactly
when the script cannot be classified. -/
theorem C75_output (v : Int) (s : Script) :
    (∀ t, s.Is t → ∃ o, Output.create v s = .ok o) ∧
    (∀ e, Script.create s.instructions = .error e ↔ Output.create v s = .error e) ∧
    ∀ o, Output.create v s = .ok o → o.amount = v ∧ o.script.instructions = s.instructions ∧
      (o.cls = .address ↔ s.Is .p2pkhOut) ∧ (o.cls = .script ↔ s.Is .p2shOut) ∧ (o.cls = .data ↔ s.Is .nullData) ∧
      o.cls ≠ .multisig ∧ ∀ t, o.script.cls.template = some t ↔ s.Is t := by
  refine ⟨?_, ?_, ?_⟩
  · intro t h
    obtain ⟨c, hc, _⟩ := create_template s _ h
    exact ⟨_, by unfold Output.create; rw [hc]⟩
  · intro e
    unfold Output.create
    cases Script.create s.instructions <;> simp
  · intro o h
    unfold Output.create at h
    split at h
    · cases h
    · next r hc =>
      cases h
      obtain ⟨hi, hr⟩ := create_ok hc
      refine ⟨rfl, hi, ?_, ?_, ?_, ?_, hr⟩
      · rw [← hr]; cases r.cls <;> simp [ScriptClass.template]
      · rw [← hr]; cases r.cls <;> simp [ScriptClass.template]
      · rw [← hr]; cases r.cls <;> simp [ScriptClass.template]
      · cases r.cls <;> simp

/-- C75. What an output's own script is classified as does not depend on the class it has already. -/
theorem C75_output_idempotent (v : Int) (s : Script) (o : Output) (h : Output.create v s = .ok o) :
    Output.create o.amount o.script = .ok o := by
  obtain ⟨h1, h2, _⟩ := (C75_output v s).2.2 o h
  rw [h1]
  unfold Output.create at h ⊢
  rw [h2]
  exact h

/-- A script of two pushes, and one that is neither template. -/
example : (⟨.generic, [⟨.num 1, some ⟨.str, [9]⟩⟩, ⟨.num 1, some ⟨.str, [8]⟩⟩]⟩ : Script).Is .p2pkhIn ∧
    Input.create [] 0 ⟨.generic, [⟨.num 118, none⟩]⟩ = .error .nameError := ⟨rfl, by decide⟩

example : (⟨.generic, [⟨.num 0, none⟩, ⟨.num 1, some ⟨.str, [9]⟩⟩, ⟨.num 1, some ⟨.str, [8]⟩⟩]⟩ : Script).Is .p2shIn :=
  ⟨2, le_refl 2, rfl⟩

example : (Output.create 5 ⟨.generic, [⟨.num 106, none⟩, ⟨.num 1, some ⟨.str, [9]⟩⟩]⟩).map (·.cls) = .ok .data := by decide

end Bitforge
