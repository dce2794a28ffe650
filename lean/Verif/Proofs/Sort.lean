import Verif.Model.Util
/-
`sorted` sorts, is a permutation.
-/
namespace List
variable {α : Type}

theorem pyInsert_perm (le : α → α → Bool) (x : α) (l : List α) : (l.pyInsert le x).Perm (x :: l) := by
  induction l with
  | nil => exact .refl _
  | cons y l ih =>
    unfold pyInsert
    split
    · exact .refl _
    · exact (ih.cons y).trans (.swap ..)

theorem pySort_perm (l : List α) (le : α → α → Bool) : (l.pySort le).Perm l := by
  induction l with
  | nil => exact .refl _
  | cons x l ih => exact (pyInsert_perm le x _).trans (ih.cons x)

theorem pyInsert_pairwise {le : α → α → Bool} (tr : ∀ a b c, le a b → le b c → le a c) (tot : ∀ a b, le a b || le b a) (x : α) {l : List α}
    (h : l.Pairwise (fun a b => le a b)) : (l.pyInsert le x).Pairwise (fun a b => le a b) := by
  induction l with
  | nil => simp [pyInsert]
  | cons y l ih =>
    obtain ⟨h1, h2⟩ := pairwise_cons.1 h
    unfold pyInsert
    split
    · rename_i hxy
      refine pairwise_cons.2 ⟨fun z hz => ?_, h⟩
      rcases mem_cons.1 hz with rfl | hz
      · exact hxy
      · exact tr _ _ _ hxy (h1 z hz)
    · rename_i hxy
      refine pairwise_cons.2 ⟨fun z hz => ?_, ih h2⟩
      rcases mem_cons.1 ((pyInsert_perm le x l).mem_iff.1 hz) with rfl | hz
      · have := tot z y
        cases hzy : le z y
        · rw [hzy] at this; simpa using this
        · exact absurd hzy hxy
      · exact h1 z hz

theorem pairwise_pySort {le : α → α → Bool} (tr : ∀ a b c, le a b → le b c → le a c) (tot : ∀ a b, le a b || le b a) (l : List α) :
    (l.pySort le).Pairwise (fun a b => le a b) := by
  induction l with
  | nil => exact .nil
  | cons x l ih => exact pyInsert_pairwise tr tot x ih

end List
