/-!
# `sort_unstable` on integers

The result of sorting integers does not depend on the algorithm (`sort_unique`), so insertion sort
stands for `slice::sort_unstable`.
-/

namespace Verif.Sc

def insertInt (x : Int) : List Int → List Int
  | [] => [x]
  | y :: rest => if x ≤ y then x :: y :: rest else y :: insertInt x rest

/-- `slice::sort_unstable` on `i32`s -/
def sortInts (l : List Int) : List Int := l.foldr insertInt []

theorem insertInt_perm (x : Int) (l : List Int) : (insertInt x l).Perm (x :: l) := by
  induction l with
  | nil => exact .refl _
  | cons y rest ih =>
    unfold insertInt
    split
    · exact .refl _
    · exact (ih.cons y).trans (.swap _ _ _)

theorem sortInts_perm (l : List Int) : (sortInts l).Perm l := by
  induction l with
  | nil => exact .refl _
  | cons x rest ih => exact (insertInt_perm x _).trans (ih.cons x)

theorem insertInt_sorted (x : Int) (l : List Int) (h : l.Pairwise (· ≤ ·)) :
    (insertInt x l).Pairwise (· ≤ ·) := by
  induction l with
  | nil => simp [insertInt]
  | cons y rest ih =>
    have ⟨h1, h2⟩ := List.pairwise_cons.1 h
    unfold insertInt
    split
    · refine List.pairwise_cons.2 ⟨fun a ha => ?_, h⟩
      rcases List.mem_cons.1 ha with rfl | ha
      · assumption
      · have := h1 a ha; omega
    · refine List.pairwise_cons.2 ⟨fun a ha => ?_, ih h2⟩
      rcases List.mem_cons.1 ((insertInt_perm x rest).mem_iff.1 ha) with rfl | ha
      · omega
      · exact h1 a ha

theorem sortInts_sorted (l : List Int) : (sortInts l).Pairwise (· ≤ ·) := by
  induction l with
  | nil => exact .nil
  | cons x rest ih => exact insertInt_sorted x _ ih

theorem mem_sortInts (l : List Int) (x : Int) : x ∈ sortInts l ↔ x ∈ l := (sortInts_perm l).mem_iff

/-- sorted permutations are equal -/
theorem sort_unique (a b : List Int) (h : a.Perm b) (ha : a.Pairwise (· ≤ ·)) (hb : b.Pairwise (· ≤ ·)) :
    a = b :=
  h.eq_of_pairwise (fun x y _ _ h1 h2 => by omega) ha hb

end Verif.Sc
