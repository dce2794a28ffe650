import Verif.Proofs.CollectSim
import Verif.Proofs.DemoDev
/-
Running concrete programs with garbage collection in the model.
-/
namespace Whale
open Mat Hist
variable {V : Type}

namespace Demo

/-- What a program or its interpreter does next. -/
inductive Act (V : Type)
  | call (c : Call V)
  | drop (R : List Nat)
  | collect (i : Nat)

/-- One round of following references. -/
def follow (w : World V) (S : List Nat) : List Nat := (S ++ S.flatMap fun i => (w.g.ctx i).inputs ++ (w.grad i).toList).dedup

/-- The arrays alive when the program refers to `R` (following references often enough). -/
def liveSet (w : World V) (R : List Nat) : List Nat := (List.range w.g.length).foldl (fun S _ => follow w S) R

def closedB (w : World V) (S : List Nat) : Bool := S.all fun i => ((w.g.ctx i).inputs ++ (w.grad i).toList).all (· ∈ S)

theorem closedB_sound {w : World V} {S R : List Nat} (h : closedB w S = true) (hR : ∀ i ∈ R, i ∈ S) {i : Nat} (hi : Live w R i) : i ∈ S := by
  have h' : ∀ i ∈ S, ∀ x ∈ (w.g.ctx i).inputs ++ (w.grad i).toList, x ∈ S := by
    simp only [closedB, List.all_eq_true, decide_eq_true_eq] at h; exact h
  induction hi with
  | root hm => exact hR _ hm
  | input _ hx ih => exact h' _ ih _ (List.mem_append_left _ hx)
  | grad _ hk ih => exact h' _ ih _ (List.mem_append_right _ (by simp [hk]))

abbrev GState (V : Type) := World V × List Nat × List Nat

def actB (b : Backend V) (s : GState V) : Act V → Option (GState V)
  | .call c => if c.arrays.all (· ∈ s.2.1) && argsOKb b s.1 c then match step b s.1 c with
    | .ok (o, w') => some (w', held s.2.1 o, s.2.2)
    | .error _ => none
    else none
  | .drop R => if R.all (· ∈ s.2.1) then some (s.1, R, s.2.2) else none
  | .collect i => if decide (i < s.1.g.length) && closedB s.1 (liveSet s.1 s.2.1) && s.2.1.all (· ∈ liveSet s.1 s.2.1) && !decide (i ∈ liveSet s.1 s.2.1) && !decide (i ∈ s.2.2) then
      some (s.1.collect i, s.2.1, i :: s.2.2) else none

def actsB (b : Backend V) (s : GState V) : List (Act V) → Option (GState V)
  | [] => some s
  | a :: as => (actB b s a).bind fun s' => actsB b s' as

theorem actB_sound {b : Backend V} (hb : Faithful b) {s s' : GState V} {w : World V} {R G : List Nat} (hi : InvC b w R G) (h : RunsG b w R G s.1 s.2.1 s.2.2) {a : Act V}
    (ha : actB b s a = some s') : RunsG b w R G s'.1 s'.2.1 s'.2.2 := by
  obtain ⟨i1, _⟩ := h.inv hb hi
  cases a with
  | call c =>
    simp only [actB] at ha
    split at ha
    · rename_i hc
      simp only [Bool.and_eq_true, List.all_eq_true, decide_eq_true_eq] at hc
      split at ha
      · rename_i o w' hs
        cases ha
        exact .call h hc.1 (argsOKb_sound (fun a ha => i1.held a (hc.1 a ha)) i1.inv.winv.wf hc.2) hs
      · cases ha
    · cases ha
  | drop R =>
    simp only [actB] at ha
    split at ha
    · rename_i hc
      simp only [List.all_eq_true, decide_eq_true_eq] at hc
      cases ha; exact .drop h hc
    · cases ha
  | collect i =>
    simp only [actB] at ha
    split at ha
    · rename_i hc
      simp only [Bool.and_eq_true, List.all_eq_true, decide_eq_true_eq, Bool.not_eq_true', decide_eq_false_iff_not] at hc
      obtain ⟨⟨⟨⟨h1, h2⟩, h3⟩, h4⟩, h5⟩ := hc
      cases ha
      exact .collect h h1 (fun hl => h4 (closedB_sound h2 h3 hl)) h5
    · cases ha

theorem actsB_sound {b : Backend V} (hb : Faithful b) {w : World V} {R G : List Nat} (hi : InvC b w R G) {as : List (Act V)} {s s' : GState V} (h : RunsG b w R G s.1 s.2.1 s.2.2)
    (ha : actsB b s as = some s') : RunsG b w R G s'.1 s'.2.1 s'.2.2 := by
  induction as generalizing s with
  | nil => cases ha; exact h
  | cons a as ih =>
    simp only [actsB] at ha
    cases e : actB b s a with
    | none => rw [e] at ha; cases ha
    | some s1 => rw [e] at ha; exact ih (actB_sound hb hi h e) ha

/-- The state after a program with garbage collection. -/
def afterG (b : Backend V) (as : List (Act V)) : GState V := (actsB b (Mat.init, [], []) as).getD (Mat.init, [], [])

def runsG (b : Backend V) (as : List (Act V)) : Bool := (actsB b (Mat.init, [], []) as).isSome

theorem reachG {b : Backend V} (hb : Faithful b) {as : List (Act V)} (h : runsG b as = true) : ReachableG b (afterG b as).1 (afterG b as).2.1 (afterG b as).2.2 := by
  unfold runsG at h
  obtain ⟨s, hs⟩ := Option.isSome_iff_exists.1 h
  have e : afterG b as = s := by unfold afterG; rw [hs]; rfl
  rw [e]
  exact actsB_sound hb (Inv.initC b) .refl hs

/-- What `tolist` returns: shape and elements. -/
def listOfW (b : Backend Int) (w : World Int) (a : Nat) : Option (List Int × List Int) := match step b w (.tolist a) with
  | .ok (.list l, _) => some (shapeOf l, leaves l)
  | _ => none

end Demo
end Whale
