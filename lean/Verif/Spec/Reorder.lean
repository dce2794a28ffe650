import Verif.Model.Sched
/-
Specification vocabulary for reordering loops.
-/
namespace Whale

/-- The positions of a schedule's loops that belong to `lvs`, innermost first. -/
def positions (s : Schedule) (lvs : List LoopVar) : List Nat := ((List.range s.loops.length).filter fun p => decide ((s.loops.getD p default).lv ∈ lvs)).reverse

end Whale
