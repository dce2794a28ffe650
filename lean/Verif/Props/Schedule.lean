import Verif.Proofs.KernelGpu
import Verif.Proofs.Reorder
/-
Properties of the scheduling primitives: splitting (C39) and reordering (C40) of loops.
-/
namespace Whale.Props
open Whale Kern Codegen
variable {V : Type}

/-! ### C39 -/

/-- C39: splitting the loop at position `p` by a positive factor replaces it by an outer and an inner loop of the same kind, leaves all other loops, and running through
outer and inner loop while skipping the iterations with `extent ≤ o * factor + i` visits `0, …, extent - 1` in this order, each once. -/
theorem C39_split {s : Schedule} {pre post : List LoopSched} {l : LoopSched} (hs : s.loops = pre ++ l :: post) (hd : ∀ x ∈ pre, x.lv.name ≠ l.lv.name)
    (he : 0 ≤ l.lv.extent) {factor : Int} (hf : 0 < factor) :
    ∃ o i s', Sched.split s l.lv factor = .ok ((o, i), s') ∧
      s'.loops = pre ++ ⟨o, l.kind, .sequential⟩ :: ⟨i, l.kind, .sequential⟩ :: post ∧
      ((irange o.extent).flatMap fun x => ((irange i.extent).map fun y => x * factor + y).filter fun v => decide (v < l.lv.extent)) = irange l.lv.extent ∧
      ∃ sp, s'.splits = s.splits ++ [sp] ∧ sp.orig = l.lv ∧ sp.o = o ∧ sp.i = i ∧ sp.factor = factor ∧
        (sp.tailGuard = false → ∀ x ∈ irange o.extent, ∀ y ∈ irange i.extent, x * factor + y < l.lv.extent) := by
  refine ⟨⟨.splitO l.lv.name, Sched.ceilDiv l.lv.extent factor⟩, ⟨.splitI l.lv.name, factor⟩,
    ⟨s.loops.take pre.length ++ [⟨⟨.splitO l.lv.name, Sched.ceilDiv l.lv.extent factor⟩, l.kind, .sequential⟩, ⟨⟨.splitI l.lv.name, factor⟩, l.kind, .sequential⟩] ++ s.loops.drop (pre.length + 1),
     s.splits ++ [⟨l.lv, ⟨.splitO l.lv.name, Sched.ceilDiv l.lv.extent factor⟩, ⟨.splitI l.lv.name, factor⟩, factor, decide (l.lv.extent % factor ≠ 0)⟩]⟩,
    ?_, ?_, ?_, ⟨l.lv, _, _, factor, decide (l.lv.extent % factor ≠ 0)⟩, ?_, rfl, rfl, rfl, rfl, ?_⟩
  · simp only [Sched.split, index_at hs rfl hd, bind, Except.bind, pure, Except.pure, if_neg (show factor ≠ 0 by omega)]
    simp [hs]
  · simp [hs]
  · have h := split_range (α := Int) he hf id
    rw [List.map_id] at h
    rw [← h]
    apply List.flatMap_congr
    intro x _
    have : ∀ ys : List Int, (ys.map fun y => x * factor + y).filter (fun v => decide (v < l.lv.extent)) =
        ys.flatMap fun y => if x * factor + y < l.lv.extent then [id (x * factor + y)] else [] := by
      intro ys
      induction ys with
      | nil => rfl
      | cons y ys ih =>
        rw [List.flatMap_cons, List.map_cons, List.filter_cons, ih]
        by_cases h : x * factor + y < l.lv.extent <;> simp [h]
    exact this _
  · rfl
  · intro ht x hx y hy
    have hd' : l.lv.extent % factor = 0 := by simpa using ht
    exact split_exact hf hd' (mem_irange.1 hx).2 (mem_irange.1 hy).2

/-- C39, generated code: with outer and inner variable at `x` and `y`, the statements emitted for the split declare the original loop variable with value
`x * factor + y` and return if that is not below the extent; without the tail guard they never have to. -/
theorem C39_code {s s' : Schedule} {lv o i : LoopVar} {factor : Int} (hf : 0 < factor) (h : Sched.split s lv factor = .ok ((o, i), s')) {sp : SplitLoop}
    (hsp : s'.splits = s.splits ++ [sp]) (m : Machine V) (hm : m.ar.lim = none) {σ : KEnv V} {x y : Int} (hx : x ∈ irange o.extent) (hy : y ∈ irange i.extent)
    (ho : σ o.name = some (.I x)) (hi : σ i.name = some (.I y)) (hn : σ lv.name = none) :
    exec m (.seq (splitInits [sp]) (splitGuards [sp])) σ = some ⟨σ.set lv.name (.I (x * factor + y)), [], decide (lv.extent ≤ x * factor + y)⟩ := by
  unfold Sched.split at h
  rw [if_neg (show factor ≠ 0 by omega)] at h
  simp only [bind, Except.bind, pure, Except.pure] at h
  split at h
  · cases h
  simp only [Except.ok.injEq, Prod.mk.injEq] at h
  obtain ⟨⟨rfl, rfl⟩, rfl⟩ := h
  have : sp = ⟨lv, ⟨.splitO lv.name, Sched.ceilDiv lv.extent factor⟩, ⟨.splitI lv.name, factor⟩, factor, decide (lv.extent % factor ≠ 0)⟩ := by
    simpa using hsp.symm
  subst this
  have e1 : exec m (splitInits [⟨lv, ⟨.splitO lv.name, Sched.ceilDiv lv.extent factor⟩, ⟨.splitI lv.name, factor⟩, factor, decide (lv.extent % factor ≠ 0)⟩]) σ
      = some ⟨σ.set lv.name (.I (x * factor + y)), [], false⟩ := by
    simp only [splitInits, exec, hn, Option.isSome_none, Bool.false_eq_true, if_false, evalKI, ho, hi]
    cases hC : m.ar <;> simp [iarith, cOp, pyOp] <;> (rw [hC] at hm; cases hm)
  simp only [exec, e1, Option.bind_eq_bind, Option.bind_some, Bool.false_eq_true, if_false]
  by_cases ht : lv.extent % factor = 0
  · have hlt := split_exact hf ht (mem_irange.1 hx).2 (mem_irange.1 hy).2
    simp [splitGuards, ht, exec]
    omega
  · simp only [splitGuards, ht, ne_eq, not_false_eq_true, decide_true, if_true, exec, evalKI, KEnv.set]
    cases hC : m.ar <;> simp [iarith, cOp, pyOp] <;> first | (rw [hC] at hm; cases hm; done) | (split <;> simp_all)

/-- Ten iterations in blocks of four. -/
example : (Sched.split ⟨[⟨⟨.loop false 0, 10⟩, .spatial, .sequential⟩], []⟩ ⟨.loop false 0, 10⟩ 4).toOption.map (fun r => (r.1.1.extent, r.1.2.extent, r.2.loops.length, r.2.splits.map (·.tailGuard)))
    = some (3, 4, 2, [true]) := by decide

/-! ### C40 -/

/-- C40: reordering distinct loops of a schedule succeeds and only moves loop variables: the given ones go, innermost first, to the positions that the given ones had;
every other variable stays, and so do number, kind and execution mode of the loops at every position and the splits. -/
theorem C40_reorder {s : Schedule} (hnd : (s.loops.map (·.lv.name)).Nodup) {lvs : List LoopVar} (hd : lvs.Nodup) (hin : ∀ lv ∈ lvs, ∃ l ∈ s.loops, l.lv = lv) :
    ∃ s', Sched.reorder s lvs = .ok s' ∧ s'.splits = s.splits ∧ s'.loops.length = s.loops.length ∧
      (s'.loops.map (·.lv)).Perm (s.loops.map (·.lv)) ∧
      (positions s lvs).map (fun p => (s'.loops.getD p default).lv) = lvs ∧
      (∀ p, (s'.loops.getD p default).kind = (s.loops.getD p default).kind ∧ (s'.loops.getD p default).exec = (s.loops.getD p default).exec ∧
        ((s.loops.getD p default).lv ∉ lvs → (s'.loops.getD p default).lv = (s.loops.getD p default).lv)) := reorder_spec hnd hd hin

/-- C40: a variable that is not a loop of the schedule is reported. -/
theorem C40_unknown {s : Schedule} {lvs : List LoopVar} {lv : LoopVar} (hm : lv ∈ lvs) (h : ∀ l ∈ s.loops, l.lv.name ≠ lv.name) :
    Sched.reorder s lvs = .error .loopNotFound := reorder_unknown hm h

/-- Reordering the first and third of three loops. -/
example : (Sched.reorder ⟨[⟨⟨.loop false 0, 4⟩, .spatial, .parallel⟩, ⟨⟨.loop false 1, 5⟩, .spatial, .sequential⟩, ⟨⟨.loop false 2, 6⟩, .spatial, .vectorize⟩], []⟩
      [⟨.loop false 0, 4⟩, ⟨.loop false 2, 6⟩]).toOption.map (fun s => s.loops.map fun l => (l.lv.extent, l.exec)) =
    some [(6, .parallel), (5, .sequential), (4, .vectorize)] := by decide

end Whale.Props
