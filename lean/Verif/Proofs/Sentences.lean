import Verif.Spec.Messages

/-! # The templates of messages are the sentences of the specification -/

namespace Bitforge
open Spec

/-- A part of a sentence in the notation of `str.format`. -/
def partText : Part → Text
  | .say w => w.toList
  | .field f => '{' :: (f.toList ++ ['}'])

/-- There are no braces in the words and names. -/
def cleanPart : Part → Bool
  | .say w => w.toList.all fun c => c ≠ '{' ∧ c ≠ '}'
  | .field f => f.toList.all fun c => c ≠ '}'

def fieldNames : List Part → List String
  | [] => []
  | .say _ :: ps => fieldNames ps
  | .field f :: ps => f :: fieldNames ps

theorem doc_sentence (e : Err) : e.doc.toList = ((sentence e).map partText).flatten := by
  cases e with
  | insufficientData a b =>
    exact (by decide +kernel : (Err.insufficientData 0 0).doc.toList = ((sentence (.insufficientData 0 0)).map partText).flatten)
  | _ => decide +kernel

theorem sentence_clean (e : Err) : (sentence e).all cleanPart = true := by
  cases e with
  | insufficientData a b => exact (by decide +kernel : (sentence (.insufficientData 0 0)).all cleanPart = true)
  | _ => decide +kernel

theorem sentence_ascii (e : Err) : (sentence e).all (fun p => match p with
    | .say w => w.toList.all fun c => c.toNat < 128
    | .field _ => true) = true := by
  have : ∀ e : Err, (e.doc.toList.all fun c => c.toNat < 128) = true := by
    intro e
    cases e with
    | insufficientData a b => exact (by decide +kernel : ((Err.insufficientData 0 0).doc.toList.all fun c => c.toNat < 128) = true)
    | _ => decide +kernel
  rw [List.all_eq_true]
  intro p hp
  cases p with
  | field f => rfl
  | say w =>
    simp only [List.all_eq_true]
    intro c hc
    have h := this e
    rw [doc_sentence, List.all_eq_true] at h
    exact h c (List.mem_flatten.2 ⟨_, List.mem_map.2 ⟨_, hp, rfl⟩, hc⟩)

end Bitforge
