import Verif.Props.Slq

/-! # C29: for which inquiries a sample allocates eigenvector buffers -/

namespace Imate.Props

open Imate.Lanczos

/-- C29.  A sample allocates eigenvector buffers for an inquiry exactly when it computes it: of a known relation between the inquiries only the
first, and of these all that have not converged; a converged one is left out only when every inquiry is iterated. -/
theorem inquiry_blocks_allocated (gram relationKnown : Bool) (num : Nat) (converged : Nat → Bool) (j : Nat) :
    (if gram then Block.leftVectors j else Block.eigenvectors j) ∈ allocatedBlocks gram (if relationKnown then 1 else num) num converged ↔
      (if relationKnown then j = 0 else j < num) ∧ (converged j = true → relationKnown = true ∧ num ≠ 1) := by
  have hinit : (if gram then Block.leftVectors j else Block.eigenvectors j) ∉ initialBlocks num := by
    unfold initialBlocks
    cases gram <;> simp
  unfold allocatedBlocks
  rw [List.mem_append, or_iff_right hinit, List.mem_flatMap]
  have hmem : ∀ i, (if gram then Block.leftVectors j else Block.eigenvectors j) ∈ inquiryBlocks gram i ↔ i = j := fun i => by
    unfold inquiryBlocks
    cases gram <;> simp [eq_comm]
  simp only [hmem, exists_eq_right]
  unfold computedInquiries
  rw [List.mem_filter, List.mem_range]
  cases relationKnown
  · simp
  · simp only [if_true, Nat.lt_one_iff, true_and]
    refine and_congr_right fun _ => ?_
    by_cases h : converged j = true
    · rw [h]
      by_cases h2 : num = 1
      · subst h2
        simp
      · have : (1 == num) = false := by simpa using fun e => h2 e.symm
        simp [this, h2]
    · simp [h]

/-- Two inquiries with a known relation: the first is computed although it has converged. -/
example : Block.eigenvectors 0 ∈ allocatedBlocks false 1 2 fun _ => true := (inquiry_blocks_allocated false true 2 _ 0).2 ⟨rfl, fun _ => ⟨rfl, by decide⟩⟩

end Imate.Props
