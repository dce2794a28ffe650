import Verif.Proofs.Demo
import Verif.Proofs.Slice
/-
C08: indexing and slicing.
-/
namespace Whale.Props
open Whale Mat Hist
variable {V : Type}

/-- C08.  `a[subs]` raises exactly when there are too many subscripts, an integer is out of range, a step is not positive, or a subscript is neither an
integer nor a slice; otherwise it selects along each axis what Python's own indexing selects (`Spec/Slice`), whether it is read directly or used in a
computation. -/
theorem C08_getitem {b : Backend V} (hb : Faithful b) {w : World V} (hw : Reachable b w) {a : Nat} (ha : a < w.g.length) (subs : List RawSub) :
    ((∃ e, step b w (.getitem a subs) = .error e) ↔ picks (w.g.shape a) subs = none) ∧
    ∀ ps, picks (w.g.shape a) subs = some ps → ∃ r w', step b w (.getitem a subs) = .ok (.arr r, w') ∧
      Is b w' r ⟨pickShape ps, fun idx => (value b w a).get (pickIdx ps idx)⟩ := by
  have h := hw.inv hb
  have hnn := (h.nn a ha).1
  by_cases hl : subs.length ≤ w.g.ndim a
  · have hlen : (subs ++ List.replicate (w.g.ndim a - subs.length) (RawSub.slice none none none)).length = (w.g.shape a).length := by
      simp [Graph.ndim] at *; omega
    rcases normSubs_picks hnn hlen with ⟨ss, ps, e1, e2, e3⟩ | ⟨⟨e, e1⟩, e2⟩
    · rw [show w.g.ndim a = (w.g.shape a).length from rfl, picks_pad hnn hl] at e2
      obtain ⟨r, g', e4, m, _, d⟩ := getitem_s h.winv.wf h.nn ha hl e1
      have hok : step b w (.getitem a subs) = .ok (.arr r, { w with g := g' }) :=
        step_made (by simpa [Call.arrays] using ha) (by simp only [exec1, e4])
      refine ⟨⟨fun ⟨e, he⟩ => ?_, fun hn => ?_⟩, fun ps' hps => ⟨r, _, hok, ?_⟩⟩
      · rw [hok] at he; cases he
      · rw [e2] at hn; cases hn
      · rw [e2] at hps; cases hps
        refine made_is hb h m ?_
        rw [d b.A]
        refine ⟨e3.shape, fun idx hi => ?_⟩
        have hi' : ValidIdx (Tensor.sliceShape ss) idx := hi
        show (den b.A w.g a).get _ = (value b w a).get _
        rw [e3.idx (by rw [← e3.shape]; exact hi')]; rfl
    · rw [show w.g.ndim a = (w.g.shape a).length from rfl, picks_pad hnn hl] at e2
      refine ⟨⟨fun _ => e2, fun _ => ⟨e, ?_⟩⟩, fun ps hps => by rw [e2] at hps; cases hps⟩
      rw [step_eq (by simpa [Call.arrays] using ha)]
      simp only [exec1]
      unfold ND.getitem
      rw [if_neg (by omega)]
      simp only [e1, bind, Except.bind]; rfl
  · have e2 := picks_too_many (s := w.g.shape a) (rs := subs) (by unfold Graph.ndim at hl; omega)
    refine ⟨⟨fun _ => e2, fun _ => ⟨.tooManyIndices, ?_⟩⟩, fun ps hps => by rw [e2] at hps; cases hps⟩
    rw [step_eq (by simpa [Call.arrays] using ha)]
    simp only [exec1]
    unfold ND.getitem
    rw [if_pos (by omega)]; rfl

/-- `m[-1, -2::2]`, `m[:, 5:1]` and `m[2]` on a 2×3 array. -/
example : picks [2, 3] [.int (-1), .slice (some (-2)) none (some 2)] = some [.one 1, .many [1]] ∧
    picks [2, 3] [.slice none none none, .slice (some 5) (some 1) none] = some [.many [0, 1], .many []] ∧ picks [2, 3] [.int 2] = none ∧
    Demo.listOf [.array Demo.m23, .getitem 0 [.slice none none none, .slice (some (-3)) none (some 2)]] (.tolist 1) = some ([2, 2], [1, 3, 4, 6]) := by
  decide +kernel

end Whale.Props
