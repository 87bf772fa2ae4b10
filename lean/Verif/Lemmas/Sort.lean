import Verif.Model.Seq
/- Facts about Python's `sorted`. -/
namespace Planar
variable {α : Type}

theorem pySorted_perm (lt : α → α → Bool) (l : List α) : (pySorted lt l).Perm l :=
  List.perm_insertionSort _ l

/-- The result is sorted when the comparison is a total preorder. -/
theorem pySorted_pairwise {lt : α → α → Bool} (trans : ∀ a b c, lt b a = false → lt c b = false → lt c a = false)
    (total : ∀ a b, lt b a = false ∨ lt a b = false) (l : List α) :
    (pySorted lt l).Pairwise fun a b => lt b a = false := by
  haveI : Std.Total fun a b => lt b a = false := ⟨fun a b => total a b⟩
  haveI : IsTrans α fun a b => lt b a = false := ⟨fun a b c h1 h2 => trans a b c h1 h2⟩
  exact List.pairwise_insertionSort _ l

/-- When only equal elements compare equal, the sorted list is the only sorted arrangement. -/
theorem pySorted_unique {lt : α → α → Bool} (trans : ∀ a b c, lt b a = false → lt c b = false → lt c a = false)
    (total : ∀ a b, lt b a = false ∨ lt a b = false) (anti : ∀ a b, lt b a = false → lt a b = false → a = b)
    {l m : List α} (hp : l.Perm m) (hm : m.Pairwise fun a b => lt b a = false) : pySorted lt l = m :=
  List.Perm.eq_of_pairwise (fun a b _ _ h1 h2 => anti a b h1 h2) (pySorted_pairwise trans total l) hm
    ((pySorted_perm lt l).trans hp)

end Planar
