import Verif.Proofs.Custom
/-
GPU kernels with schedules built from the scheduling primitives.
-/
namespace Whale
open Algo Codegen Kern
set_option linter.unusedSectionVars false
variable {V : Type} [Lim]

/-- Modes of GPU kernels. -/
def gpuMode : LoopExec → Bool
  | .parallel => false
  | .vectorize => false
  | _ => true

theorem GpuScheduled.laid {g : Graph V} {a : Nat} {F : Func} (hE : EntryOK g a F) {s : Schedule} (h : GpuScheduled F s) : ∃ fac, Laid gpuMode (g.shape a) fac s := by
  induction h with
  | init => exact ⟨_, laid_init hE rfl⟩
  | mode _ h1 h2 hs ih =>
    obtain ⟨fac, ih⟩ := ih
    exact ⟨fac, ih.mode (by rename_i e _ _; cases e <;> simp_all [gpuMode]) hs⟩
  | split _ hl hf hs ih =>
    obtain ⟨fac, ih⟩ := ih
    rw [hE.loops] at hl
    obtain ⟨k, hk, rfl⟩ := List.mem_iff_getElem.1 hl
    rw [outLoops_getElem] at hs
    exact ⟨_, ih.split rfl hf (by simpa [outLoops_length, Graph.ndim] using hk) hs⟩
  | reorder _ hd hin hs ih => obtain ⟨fac, ih⟩ := ih; exact ⟨fac, ih.reorder hd hin hs⟩

/-! ### threads and loop indices -/

/-- A block or thread index of a thread. -/
def Kern.Thread.at (t : Thread) (p : Bool × Dim3) : Int := if p.1 then t.thread p.2 else t.block p.2

theorem thread_ext {t t' : Thread} (h : ∀ p, t.at p = t'.at p) : t = t' := by
  obtain ⟨b, th⟩ := t
  obtain ⟨b', th'⟩ := t'
  congr
  · funext d; simpa [Kern.Thread.at] using h (false, d)
  · funext d; simpa [Kern.Thread.at] using h (true, d)

theorem mem_threads_iff {sch : Schedule} {t : Thread} : t ∈ threads sch ↔ ∀ p : Bool × Dim3, 0 ≤ t.at p ∧ t.at p < launchDim sch p.1 p.2 := by
  simp only [threads, List.mem_flatMap, List.mem_map, mem_irange]
  constructor
  · rintro ⟨bx, h1, bY, h2, bz, h3, tx, h4, ty, h5, tz, h6, rfl⟩ ⟨th, d⟩
    cases th <;> cases d <;> assumption
  · intro h
    refine ⟨_, h (false, .x), _, h (false, .y), _, h (false, .z), _, h (true, .x), _, h (true, .y), _, h (true, .z), ?_⟩
    apply thread_ext
    rintro ⟨th, d⟩
    cases th <;> cases d <;> rfl

theorem irange_nodup (n : Int) : (irange n).Nodup := by
  unfold irange
  exact List.nodup_range.map (fun a b h => Int.ofNat.inj h)

theorem nodup_flatMap_inj {α β : Type} {l : List α} {f : α → List β} (hl : l.Nodup) (hf : ∀ a ∈ l, (f a).Nodup) (h : ∀ a ∈ l, ∀ b ∈ l, ∀ x, x ∈ f a → x ∈ f b → a = b) : (l.flatMap f).Nodup := by
  rw [List.nodup_flatMap]
  refine ⟨hf, List.Pairwise.imp_of_mem ?_ hl⟩
  intro a b ha hb hne x hx hy
  exact hne (h a ha b hb x hx hy)

theorem threads_nodup (sch : Schedule) : (threads sch).Nodup := by
  unfold threads
  refine nodup_flatMap_inj (irange_nodup _) (fun bx _ => nodup_flatMap_inj (irange_nodup _) (fun bY _ => nodup_flatMap_inj (irange_nodup _) (fun bz _ =>
    nodup_flatMap_inj (irange_nodup _) (fun tx _ => nodup_flatMap_inj (irange_nodup _) (fun ty _ => ?_) ?_) ?_) ?_) ?_) ?_
  · refine (irange_nodup _).map (fun a b h => ?_)
    simpa [Kern.Thread.at] using congrArg (fun t => Kern.Thread.at t (true, .z)) h
  all_goals
    intro a _ b _ t ht ht'
    simp only [List.mem_flatMap, List.mem_map] at ht ht'
  · obtain ⟨_, _, rfl⟩ := ht; obtain ⟨_, _, e⟩ := ht'
    simpa [Kern.Thread.at] using congrArg (fun t => Kern.Thread.at t (true, .y)) e.symm
  · obtain ⟨_, _, _, _, rfl⟩ := ht; obtain ⟨_, _, _, _, e⟩ := ht'
    simpa [Kern.Thread.at] using congrArg (fun t => Kern.Thread.at t (true, .x)) e.symm
  · obtain ⟨_, _, _, _, _, _, rfl⟩ := ht; obtain ⟨_, _, _, _, _, _, e⟩ := ht'
    simpa [Kern.Thread.at] using congrArg (fun t => Kern.Thread.at t (false, .z)) e.symm
  · obtain ⟨_, _, _, _, _, _, _, _, rfl⟩ := ht; obtain ⟨_, _, _, _, _, _, _, _, e⟩ := ht'
    simpa [Kern.Thread.at] using congrArg (fun t => Kern.Thread.at t (false, .y)) e.symm
  · obtain ⟨_, _, _, _, _, _, _, _, _, _, rfl⟩ := ht; obtain ⟨_, _, _, _, _, _, _, _, _, _, e⟩ := ht'
    simpa [Kern.Thread.at] using congrArg (fun t => Kern.Thread.at t (false, .x)) e.symm

/-- `x` is a value the variable of loop `l` takes on thread `t`. -/
def OnThread (t : Thread) (l : LoopSched) (x : Int) : Prop := match hwIndex l.exec with
  | some p => x = t.at p
  | none => 0 ≤ x ∧ x < l.lv.extent

theorem mem_tIdx {t : Thread} : ∀ {ls : List LoopSched} {v : List Int}, v ∈ tIdx t ls ↔ List.Forall₂ (OnThread t) ls v
  | [], v => by simp [tIdx]
  | l :: ls, v => by
    have ih := fun v => mem_tIdx (t := t) (ls := ls) (v := v)
    rw [tIdx]
    cases v with
    | nil => cases he : l.exec <;> simp
    | cons x v =>
      rw [List.forall₂_cons]
      cases he : l.exec <;> simp [OnThread, hwIndex, he, Kern.Thread.at, ih, mem_irange, and_comm, eq_comm]

theorem tIdx_nodup {t : Thread} : ∀ (ls : List LoopSched), (tIdx t ls).Nodup
  | [] => by simp [tIdx]
  | l :: ls => by
    have ih := tIdx_nodup (t := t) ls
    have h1 : ∀ x : Int, ((tIdx t ls).map (x :: ·)).Nodup := fun x => ih.map (fun a b h => by simpa using h)
    have h2 : ((irange l.lv.extent).flatMap fun i => (tIdx t ls).map (i :: ·)).Nodup := by
      refine nodup_flatMap_inj (irange_nodup _) (fun i _ => h1 i) ?_
      intro a _ b _ x hx hy
      obtain ⟨_, _, rfl⟩ := List.mem_map.1 hx
      obtain ⟨_, _, e⟩ := List.mem_map.1 hy
      exact (List.cons.inj e).1.symm
    rw [tIdx]
    cases he : l.exec <;> simp only
    case gpuBlock | gpuThread => exact h1 _
    all_goals exact h2

/-! ### launch sizes -/

theorem dimStep_hw {th : Bool} {d : Dim3} {n : Int} {l : LoopSched} : dimStep th d n l = if hwIndex l.exec = some (th, d) then l.lv.extent else n := by
  unfold dimStep
  cases l.exec <;> cases th <;> simp [hwIndex]

theorem foldl_dim {th : Bool} {d : Dim3} : ∀ (ls : List LoopSched) (n : Int), (ls.filterMap fun l => hwIndex l.exec).Nodup →
    (∀ l ∈ ls, hwIndex l.exec = some (th, d) → ls.foldl (dimStep th d) n = l.lv.extent) ∧ ((∀ l ∈ ls, hwIndex l.exec ≠ some (th, d)) → ls.foldl (dimStep th d) n = n)
  | [], n, _ => by simp
  | l :: ls, n, h => by
    have hn : (ls.filterMap fun l => hwIndex l.exec).Nodup := by
      rw [List.filterMap_cons] at h
      split at h
      · exact h
      · exact (List.nodup_cons.1 h).2
    have ih := fun n => foldl_dim (th := th) (d := d) ls n hn
    rw [List.foldl_cons, dimStep_hw]
    constructor
    · intro x hx he
      rcases List.mem_cons.1 hx with rfl | hx
      · rw [if_pos he]
        apply (ih _).2
        intro y hy e
        rw [List.filterMap_cons, he] at h
        exact (List.nodup_cons.1 h).1 (List.mem_filterMap.2 ⟨y, hy, e⟩)
      · exact (ih _).1 x hx he
    · intro hne
      rw [if_neg (hne l (by simp))]
      exact (ih _).2 (fun x hx => hne x (by simp [hx]))

theorem forall₂_left {α β : Type} {R : α → β → Prop} : ∀ {l : List α} {v : List β}, List.Forall₂ R l v → ∀ a ∈ l, ∃ b, R a b ∧ (a, b) ∈ l.zip v
  | _, _, .cons h t, a, ha => by
    rcases List.mem_cons.1 ha with rfl | ha
    · exact ⟨_, h, by simp⟩
    · obtain ⟨b, h1, h2⟩ := forall₂_left t a ha
      exact ⟨b, h1, by simp [h2]⟩

theorem forall₂_zip {α β : Type} {R : α → β → Prop} {l : List α} {v : List β} : List.Forall₂ R l v ↔ l.length = v.length ∧ ∀ p ∈ l.zip v, R p.1 p.2 := by
  induction l generalizing v with
  | nil => cases v <;> simp
  | cons a l ih => cases v <;> simp [ih, and_left_comm]

theorem validIdx_forall₂ {ls : List LoopSched} {v : List Int} : ValidIdx (ls.map (·.lv.extent)) v ↔ List.Forall₂ (fun l x => 0 ≤ x ∧ x < l.lv.extent) ls v := by
  induction ls generalizing v with
  | nil => cases v <;> simp [ValidIdx]
  | cons l ls ih => cases v <;> simp [ValidIdx, ih, and_assoc]

/-- The thread that computes at the values `v` of the loop variables of `ls`. -/
def threadOf (ls : List LoopSched) (v : List Int) : Thread :=
  let f := fun p : Bool × Dim3 => match (ls.zip v).find? (fun q => hwIndex q.1.exec == some p) with
    | some q => q.2
    | none => 0
  ⟨fun d => f (false, d), fun d => f (true, d)⟩

theorem threadOf_at {ls : List LoopSched} {v : List Int} {p : Bool × Dim3} : (threadOf ls v).at p = match (ls.zip v).find? (fun q => hwIndex q.1.exec == some p) with
    | some q => q.2
    | none => 0 := by
  obtain ⟨th, d⟩ := p
  cases th <;> rfl

section
variable {sch : Schedule} {ls : List LoopSched}

/-- `ls` are the loops that appear in the kernel. -/
theorem covered (hd : (sch.loops.filterMap fun l => hwIndex l.exec).Nodup) (hls : ls = sch.loops.filter (fun l => l.kind == .spatial)) (hs : ∀ l ∈ sch.loops, hwIndex l.exec ≠ none → l.kind = .spatial) :
    ((threads sch).flatMap fun t => tIdx t ls).Perm (indices (ls.map (·.lv.extent))) := by
  have hmem : ∀ l ∈ ls, l ∈ sch.loops := fun l hl => by rw [hls] at hl; exact (List.mem_filter.1 hl).1
  have hback : ∀ l ∈ sch.loops, ∀ p, hwIndex l.exec = some p → l ∈ ls := fun l hl p hp => by
    rw [hls, List.mem_filter]; exact ⟨hl, by simp [hs l hl (by simp [hp])]⟩
  have hdim : ∀ l ∈ ls, ∀ p, hwIndex l.exec = some p → launchDim sch p.1 p.2 = l.lv.extent := fun l hl p hp => (foldl_dim sch.loops 1 hd).1 l (hmem l hl) hp
  have hdl : (ls.filterMap fun l => hwIndex l.exec).Nodup := hd.sublist (by rw [hls]; exact List.filter_sublist.filterMap _)
  have huniq : ∀ {ls : List LoopSched} {v : List Int}, (ls.filterMap fun l => hwIndex l.exec).Nodup → ∀ q ∈ ls.zip v, ∀ q' ∈ ls.zip v, ∀ p, hwIndex q.1.exec = some p → hwIndex q'.1.exec = some p → q = q' := by
    intro ls
    induction ls with
    | nil => intro v _ q hq; simp at hq
    | cons l ls ih =>
      intro v hn q hq q' hq' p hp hp'
      cases v with
      | nil => simp at hq
      | cons x v =>
        have hn' : (ls.filterMap fun l => hwIndex l.exec).Nodup := hn.sublist ((List.sublist_cons_self l ls).filterMap _)
        rw [List.zip_cons_cons, List.mem_cons] at hq hq'
        have hno : ∀ q ∈ ls.zip v, hwIndex q.1.exec = some p → hwIndex l.exec ≠ some p := by
          intro q hq hp e
          rw [List.filterMap_cons, e] at hn
          exact (List.nodup_cons.1 hn).1 (List.mem_filterMap.2 ⟨q.1, (List.of_mem_zip hq).1, hp⟩)
        rcases hq with rfl | hq <;> rcases hq' with rfl | hq'
        · rfl
        · exact absurd hp (hno q' hq' hp')
        · exact absurd hp' (hno q hq hp)
        · exact ih hn' q hq q' hq' p hp hp'
  have key : ∀ t v, (t ∈ threads sch ∧ v ∈ tIdx t ls) ↔ (ValidIdx (ls.map (·.lv.extent)) v ∧ t = threadOf ls v) := by
    intro t v
    rw [mem_threads_iff, mem_tIdx, validIdx_forall₂, forall₂_zip, forall₂_zip]
    constructor
    · rintro ⟨ht, hl, hv⟩
      refine ⟨⟨hl, fun q hq => ?_⟩, thread_ext fun p => ?_⟩
      · have h1 := hv q hq
        unfold OnThread at h1
        split at h1
        · rename_i p hp
          rw [h1, ← hdim q.1 (List.of_mem_zip hq).1 p hp]; exact ht p
        · exact h1
      · rw [threadOf_at]
        split
        · rename_i q hq
          have h1 := hv q (List.mem_of_find?_eq_some hq)
          have h2 : hwIndex q.1.exec = some p := by simpa using List.find?_some hq
          unfold OnThread at h1
          rw [h2] at h1
          exact h1.symm
        · rename_i hq
          have : launchDim sch p.1 p.2 = 1 := (foldl_dim sch.loops 1 hd).2 fun l hlm e => by
            have hll := hback l hlm p e
            obtain ⟨i, hi, rfl⟩ := List.mem_iff_getElem.1 hll
            rw [List.find?_eq_none] at hq
            exact hq (ls[i], v[i]'(hl ▸ hi)) (List.mem_iff_getElem.2 ⟨i, by simp [hi, hl ▸ hi], by simp⟩) (by simpa using e)
          have h2 := ht p
          omega
    · rintro ⟨⟨hl, hv⟩, rfl⟩
      refine ⟨fun p => ?_, hl, fun q hq => ?_⟩
      · rw [threadOf_at]
        split
        · rename_i q hq
          have hm := List.mem_of_find?_eq_some hq
          have h2 : hwIndex q.1.exec = some p := by simpa using List.find?_some hq
          rw [hdim q.1 (List.of_mem_zip hm).1 p h2]
          exact hv q hm
        · rename_i hq
          have : launchDim sch p.1 p.2 = 1 := (foldl_dim sch.loops 1 hd).2 fun l hlm e => by
            have hll := hback l hlm p e
            obtain ⟨i, hi, rfl⟩ := List.mem_iff_getElem.1 hll
            rw [List.find?_eq_none] at hq
            exact hq (ls[i], v[i]'(hl ▸ hi)) (List.mem_iff_getElem.2 ⟨i, by simp [hi, hl ▸ hi], by simp⟩) (by simpa using e)
          omega
      · unfold OnThread
        split
        · rename_i p hp
          rw [threadOf_at]
          split
          · rename_i q' hq'
            rw [huniq hdl q hq q' (List.mem_of_find?_eq_some hq') p hp (by simpa using List.find?_some hq')]
          · rename_i hn
            rw [List.find?_eq_none] at hn
            exact absurd (by simpa using hp) (hn q hq)
        · exact hv q hq
  have hn1 : ((threads sch).flatMap fun t => tIdx t ls).Nodup := nodup_flatMap_inj (threads_nodup _) (fun t _ => tIdx_nodup ls) fun t ht t' ht' v hv hv' =>
    ((key t v).1 ⟨ht, hv⟩).2.trans ((key t' v).1 ⟨ht', hv'⟩).2.symm
  rw [List.perm_ext_iff_of_nodup hn1 (nodup_indices _)]
  intro v
  rw [List.mem_flatMap, mem_indices]
  constructor
  · rintro ⟨t, ht, hv⟩; exact ((key t v).1 ⟨ht, hv⟩).1
  · intro hv; exact ⟨threadOf ls v, (key _ v).2 ⟨hv, rfl⟩⟩

end

/-! ### the kernel -/

theorem splitGuards_exec {m : Machine V} (hL : LimOK m.ar) {X : SplitLoop → Int} (h1 : Fit 1) : ∀ (sps : List SplitLoop) (σ : KEnv V), (∀ sp ∈ sps, σ sp.orig.name = some (.I (X sp))) →
    exec m (splitGuards sps) σ = some ⟨σ, [], sps.any fun sp => sp.tailGuard && decide (sp.orig.extent ≤ X sp)⟩
  | [], σ, _ => rfl
  | sp :: sps, σ, h => by
    have ih := splitGuards_exec hL h1 sps σ (fun x hx => h x (by simp [hx]))
    rw [splitGuards]
    cases htg : sp.tailGuard with
    | false => simp [ih, htg]
    | true =>
      have hge : iarith m.ar .Le sp.orig.extent (X sp) = some (if sp.orig.extent ≤ X sp then 1 else 0) := op_agree hL (iop_some rfl (by split <;> [exact h1; exact h1.of_le (by omega) (by omega)]))
      simp only [if_true, exec, evalKI, h sp (by simp)]
      by_cases hle : sp.orig.extent ≤ X sp
      · simp [hge, hle, htg]
      · simp [hge, hle, htg, ih]

theorem splitGuards_noPar {sps : List SplitLoop} : noPar (splitGuards sps) = true := by
  induction sps with
  | nil => rfl
  | cons sp sps ih => rw [splitGuards]; split <;> simp [noPar, ih]

section
variable {shape : List Int} {fac : Nat → Option Int} {lvs : List LoopVar}

/-- Without the tail the index is in range. -/
theorem enc_valid_iff (hp : lvs.Perm ((List.range shape.length).flatMap (partOf shape fac))) (hnd : lvs.Nodup) (hf : ∀ k f, fac k = some f → 0 < f)
    {v : List Int} (hv : ValidIdx (lvs.map (·.extent)) v) : ValidIdx shape (encIdx shape fac lvs v) ↔
      ∀ k f, k < shape.length → fac k = some f → ¬ f ∣ geti shape k → geti (encIdx shape fac lvs v) k < geti shape k := by
  constructor
  · intro h k f hk _ _; exact ((validIdx_iff.1 h).2 k hk).2
  · intro h
    rw [validIdx_iff]
    refine ⟨by simp [encIdx], fun k hk => ?_⟩
    have hm : ∀ lv ∈ partOf shape fac k, lv ∈ lvs := fun lv h => hp.mem_iff.2 (List.mem_flatMap.2 ⟨k, by simpa using hk, h⟩)
    have h' := h k
    rw [encIdx, geti_map_range' hk] at h' ⊢
    cases hfk : fac k with
    | none => exact valOf_bounds hnd hv (hm _ (mem_partOf.2 (.inl ⟨hfk, rfl⟩)))
    | some f =>
      have h1 := valOf_bounds hnd hv (hm _ (mem_partOf.2 (.inr ⟨f, hfk, .inl rfl⟩)))
      have h2 := valOf_bounds hnd hv (hm _ (mem_partOf.2 (.inr ⟨f, hfk, .inr rfl⟩)))
      have hf0 := hf k f hfk
      simp only [hfk] at h1 h2 h' ⊢
      refine ⟨by have := Int.mul_nonneg h1.1 hf0.le; omega, ?_⟩
      by_cases hd : f ∣ geti shape k
      · exact split_exact hf0 (Int.emod_eq_zero_of_dvd hd) h1.2 h2.2
      · exact h' f hk rfl hd

/-- The loops with the tails skipped go through every index once. -/
theorem enc_cover (hp : lvs.Perm ((List.range shape.length).flatMap (partOf shape fac))) (hnd : lvs.Nodup) (hf : ∀ k f, fac k = some f → 0 < f) :
    (((indices (lvs.map (·.extent))).filter fun v => decide (ValidIdx shape (encIdx shape fac lvs v))).map (encIdx shape fac lvs)).Perm (indices shape) := by
  have hn1 : (((indices (lvs.map (·.extent))).filter fun v => decide (ValidIdx shape (encIdx shape fac lvs v))).map (encIdx shape fac lvs)).Nodup := by
    unfold List.Nodup
    rw [List.pairwise_map]
    exact List.Pairwise.imp_of_mem (fun {x y} hx hy hne e => hne (by
      rw [← dec_enc hp hnd hf (mem_indices.1 (List.mem_filter.1 hx).1), ← dec_enc hp hnd hf (mem_indices.1 (List.mem_filter.1 hy).1), e])) ((nodup_indices _).filter _)
  rw [List.perm_ext_iff_of_nodup hn1 (nodup_indices _)]
  intro idx
  rw [List.mem_map, mem_indices]
  constructor
  · rintro ⟨v, hv, rfl⟩; simpa using (List.mem_filter.1 hv).2
  · intro h
    exact ⟨_, List.mem_filter.2 ⟨mem_indices.2 (dec_valid hp hf h), by simpa [enc_dec hp hnd h.length] using h⟩, enc_dec hp hnd h.length⟩
end

/-- A loop variable bound to the hardware has one value on a thread. -/
theorem valOf_thread {t : Thread} {ls : List LoopSched} {v v' : List Int} (hv : v ∈ tIdx t ls) (hv' : v' ∈ tIdx t ls) {lv : LoopVar}
    (h : ∀ l ∈ ls, l.lv = lv → hwIndex l.exec ≠ none) : valOf (ls.map (·.lv)) v lv = valOf (ls.map (·.lv)) v' lv := by
  unfold valOf
  rw [mem_tIdx] at hv hv'
  by_cases hm : lv ∈ ls.map (·.lv)
  · have hi := List.idxOf_lt_length_of_mem hm
    have hi' : (ls.map (·.lv)).idxOf lv < ls.length := by simpa using hi
    have e : (ls[(ls.map (·.lv)).idxOf lv]).lv = lv := by
      have := List.getElem_idxOf (xs := ls.map (·.lv)) (x := lv) hi
      rw [List.getElem_map] at this; exact this
    have hb := h _ (List.getElem_mem hi') e
    have key : ∀ w, List.Forall₂ (OnThread t) ls w → OnThread t ls[(ls.map (·.lv)).idxOf lv] (geti w ((ls.map (·.lv)).idxOf lv)) := by
      intro w hw
      have hl := hw.length_eq
      rw [geti_eq_getElem (hl ▸ hi')]
      exact (List.forall₂_iff_get.1 hw).2 _ hi' (hl ▸ hi')
    have h1 := key v hv
    have h2 := key v' hv'
    unfold OnThread at h1 h2
    split at h1
    · rename_i p hp
      rw [hp] at h2
      exact h1.trans h2.symm
    · rename_i hp; exact absurd hp hb
  · have hl : (ls.map (·.lv)).idxOf lv = ls.length := by simpa using List.idxOf_eq_length hm
    simp only [geti]
    rw [hl, List.getD_eq_getElem?_getD, List.getD_eq_getElem?_getD, List.getElem?_eq_none (by rw [← hv.length_eq]), List.getElem?_eq_none (by rw [← hv'.length_eq])]

open Classical in
/-- A GPU kernel with a schedule built from the primitives performs the stores of the array. -/
theorem kernel_customGpu {g : Graph V} {t : Tbl} {F : Func} {m : Machine V} {a : Nat} (hwf : WF g) (hE : EntryOK g a F) (hr : RefsOK g t F)
    (hm : MemOK g (argsOf F) m (denRd m.A g)) (hlen : (m.outLen : Int) = prod (g.shape a)) {sch : Schedule} (hsch : GpuScheduled F sch) (hwb : WellBound sch) {n n' : Nat} {K : Kernel}
    (hK : codegen g t F sch (argsOf F) n = .ok (K, n')) (hfit : Fit (room (g.shape a)) := by exact fit_none) (hfac : ∀ sp ∈ sch.splits, Fit (room (g.shape a) + sp.factor) := by exact fun _ _ => fit_none) :
    (∀ r, launch m sch K.body r → ∃ ws, r = some ws ∧ ws.Perm (storesOf m.A g a)) ∧ ∃ r, launch m sch K.body r := by
  obtain ⟨fac, hL⟩ := hsch.laid hE
  unfold codegen at hK
  obtain ⟨⟨s, k, n1⟩, hg, hK⟩ := except_bind_ok hK
  cases hK
  simp only
  rw [genLoops_filter]
  have hp := hL.loops
  have hnames : ((Sched.spatials sch).map (·.name)).Nodup := (hp.map _).nodup_iff.2 partOf_names
  have hnd : (Sched.spatials sch).Nodup := List.Nodup.of_map _ hnames
  generalize hls : sch.loops.filter (fun l => l.kind == .spatial) = ls
  have hlv : ls.map (·.lv) = Sched.spatials sch := by rw [← hls]; rfl
  have hn1 : ls.map (·.lv.name) = (Sched.spatials sch).map (·.name) := by rw [← hlv, List.map_map]; rfl
  have he1 : ls.map (·.lv.extent) = (Sched.spatials sch).map (·.extent) := by rw [← hlv, List.map_map]; rfl
  have hform : ∀ x ∈ (Sched.spatials sch).map (·.name), (∃ j, fac j = none ∧ x = .loop false j) ∨ (∃ j, x = .splitO (.loop false j)) ∨ ∃ j, x = .splitI (.loop false j) := by
    intro x hx
    obtain ⟨lv, hlv, rfl⟩ := List.mem_map.1 hx
    obtain ⟨j, _, hj⟩ := List.mem_flatMap.1 (hp.subset hlv)
    rw [mem_partOf] at hj
    rcases hj with ⟨h, rfl⟩ | ⟨_, _, rfl | rfl⟩
    · exact .inl ⟨j, h, rfl⟩
    · exact .inr (.inl ⟨j, rfl⟩)
    · exact .inr (.inr ⟨j, rfl⟩)
  have hin : ∀ j < (g.shape a).length, ∀ lv ∈ partOf (g.shape a) fac j, lv ∈ Sched.spatials sch := fun j hj lv h =>
    hp.mem_iff.2 (List.mem_flatMap.2 ⟨j, by simpa using hj, h⟩)
  have hsp := hL.splits
  have hcov := covered hwb.distinct hls.symm hwb.output
  let E : List Int → List Int := encIdx (g.shape a) fac (Sched.spatials sch)
  let w : List Int → Int × V := fun idx => (ravel (g.shape a) idx, (den m.A g a).get idx)
  let W : List Int → List (Int × V) := fun v => if ValidIdx (g.shape a) (E v) then [w (E v)] else []
  let fl : Thread → Bool := fun th => decide (∃ v ∈ tIdx th ls, ¬ ValidIdx (g.shape a) (E v))
  have hval : ∀ th ∈ threads sch, ∀ v ∈ tIdx th ls, ValidIdx ((Sched.spatials sch).map (·.extent)) v := fun th hth v hv => by
    rw [← he1]; exact mem_indices.1 (hcov.subset (List.mem_flatMap.2 ⟨th, hth, hv⟩))
  have htail : ∀ th ∈ threads sch, ∀ v ∈ tIdx th ls, ∀ v' ∈ tIdx th ls, ValidIdx (g.shape a) (E v) → ValidIdx (g.shape a) (E v') := by
    intro th hth v hv v' hv' h
    rw [enc_valid_iff hp hnd hL.fac (hval th hth v hv)] at h
    rw [enc_valid_iff hp hnd hL.fac (hval th hth v' hv')]
    intro j f hj hf hd
    have h1 := h j f hj hf hd
    rw [encIdx, geti_map_range' hj, hf] at h1 ⊢
    have hb := hwb.tails _ ((hsp _).2 ⟨j, f, hj, hf, rfl⟩) hd
    have hmem : ∀ l ∈ ls, l ∈ sch.loops := fun l hl => by rw [← hls] at hl; exact (List.mem_filter.1 hl).1
    simp only [← hlv] at h1 ⊢
    have e1 := valOf_thread hv' hv (fun l hl e => hb l (hmem l hl) (.inl e))
    have e2 := valOf_thread hv' hv (fun l hl e => hb l (hmem l hl) (.inr e))
    simp only [splitOf] at e1 e2
    rw [e1, e2]
    exact h1
  have htot : ((threads sch).flatMap fun th => (tIdx th ls).flatMap W).Perm (storesOf m.A g a) := by
    rw [← List.flatMap_assoc]
    refine (hcov.flatMap_right W).trans ?_
    have h2 := (enc_cover hp hnd hL.fac).map w
    rw [List.map_map] at h2
    refine (List.Perm.of_eq ?_).trans h2
    rw [he1]
    generalize indices ((Sched.spatials sch).map (·.extent)) = I
    induction I with
    | nil => rfl
    | cons v I ih =>
      rw [List.flatMap_cons, ih, List.filter_cons]
      by_cases h : ValidIdx (g.shape a) (E v)
      · simp [W, E] at h ⊢; simp [h]
      · simp [W, E] at h ⊢; simp [h]
  have hnp : noPar (.seq s (.store (flatIdx F.outShape (F.outLoops.map (fun l => KI.var l.name))) k)) = true := by simp [noPar, genD_noPar hg]
  have hmt : ∀ th, MemOK g (argsOf F) (onThread m th) (denRd (onThread m th).A g) := fun th => ⟨hm.lim, hm.fnc, hm.buf⟩
  have key := launch_ok (m := m) (sch := sch) (body := genLoops ls (.seq (splitInits sch.splits) (.seq (splitGuards sch.splits)
        (.seq s (.store (flatIdx F.outShape (F.outLoops.map (fun l => KI.var l.name))) k))))) (W := fun th => (tIdx th ls).flatMap W) (fl := fl)
    (by
      apply genLoops_noPar
      · intro l hl
        rw [← hls] at hl
        have := hL.modes l (List.mem_filter.1 hl).1
        cases he : l.exec <;> simp_all [gpuMode, isPar]
      · have h1 := splitInits_noPar (sps := sch.splits)
        have h2 := splitGuards_noPar (sps := sch.splits)
        simp only [noPar, h1, h2, Bool.true_and] at hnp ⊢
        exact hnp)
    (by
      intro th hth
      apply genLoops_thread
      · intro l hl
        rw [← hls] at hl
        simpa using (List.mem_filter.1 hl).2
      · rw [hn1]; exact hnames
      · intro l _; rfl
      · intro hfl v hv
        simp only [fl, decide_eq_true_eq] at hfl
        obtain ⟨v', hv', hn⟩ := hfl
        exact if_neg (fun h => hn (htail th hth v hv v' hv' h))
      · intro v hv'
        have hv := hval th hth v hv'
        rw [hn1]
        have hvl : v.length = (Sched.spatials sch).length := by rw [hv.length]; simp
        have hval : ∀ lv ∈ Sched.spatials sch, (KEnv.binds (fun _ => (none : Option (Val V))) ((Sched.spatials sch).map (·.name)) v) lv.name = some (.I (valOf (Sched.spatials sch) v lv)) := by
          intro lv hlv
          have hi := List.idxOf_lt_length_of_mem hlv
          have := binds_getElem (σ := fun _ => (none : Option (Val V))) hnames (vs := v) (by simp [hvl]) (k := (Sched.spatials sch).idxOf lv) (by simpa using hi)
          simpa [valOf] using this
        have hnone : ∀ x, x ∉ (Sched.spatials sch).map (·.name) → (KEnv.binds (fun _ => (none : Option (Val V))) ((Sched.spatials sch).map (·.name)) v) x = none := fun x hx => by rw [binds_not_mem hx]
        generalize KEnv.binds (fun _ => (none : Option (Val V))) ((Sched.spatials sch).map (·.name)) v = σ at hval hnone
        have hbd : ∀ i f, i < (g.shape a).length → fac i = some f → 0 ≤ valOf (Sched.spatials sch) v (splitOf (g.shape a) i f).o * f ∧
            0 ≤ valOf (Sched.spatials sch) v (splitOf (g.shape a) i f).i ∧
            valOf (Sched.spatials sch) v (splitOf (g.shape a) i f).o * f + valOf (Sched.spatials sch) v (splitOf (g.shape a) i f).i ≤ room (g.shape a) + f := by
          intro i f hi hf
          have h1 := valOf_bounds hnd hv (hin i hi _ (mem_partOf.2 (.inr ⟨f, hf, .inl rfl⟩)))
          have h2 := valOf_bounds hnd hv (hin i hi _ (mem_partOf.2 (.inr ⟨f, hf, .inr rfl⟩)))
          have hf0 := hL.fac i f hf
          have h3 := ceilDiv_mul_lt (e := geti (g.shape a) i) hf0 h1.2
          have h4 : geti (g.shape a) i ≤ room (g.shape a) := (room_mem (by rw [geti_eq_getElem hi]; exact List.getElem_mem _)).1
          have h5 := Int.mul_nonneg h1.1 hf0.le
          simp only [splitOf] at h1 h2 ⊢
          exact ⟨h5, h2.1, by omega⟩
        obtain ⟨σ1, x1, x2, x3, x4⟩ := splitInits_exec (m := onThread m th) (hmt th).lim (O := fun sp => valOf (Sched.spatials sch) v sp.o) (I := fun sp => valOf (Sched.spatials sch) v sp.i) sch.splits σ
          (by
            unfold List.Nodup
            rw [List.pairwise_map]
            refine List.Pairwise.imp_of_mem ?_ hL.nodup
            intro x y hx hy hne e
            obtain ⟨i, f, hi, hf, rfl⟩ := (hsp x).1 hx
            obtain ⟨j, f', hj, hf', rfl⟩ := (hsp y).1 hy
            simp only [splitOf, VName.loop.injEq, true_and] at e
            subst e
            rw [hf] at hf'; cases hf'
            exact hne rfl)
          (by
            intro sp hs
            obtain ⟨i, f, hi, hf, rfl⟩ := (hsp sp).1 hs
            refine hnone _ (fun hx => ?_)
            rcases hform _ hx with ⟨j, h0, e⟩ | ⟨j, e⟩ | ⟨j, e⟩ <;> simp only [splitOf] at e <;> cases e
            rw [h0] at hf; cases hf)
          (by
            intro sp hs
            obtain ⟨i, f, hi, hf, rfl⟩ := (hsp sp).1 hs
            exact ⟨hval _ (hin i hi _ (mem_partOf.2 (.inr ⟨f, hf, .inl rfl⟩))), hval _ (hin i hi _ (mem_partOf.2 (.inr ⟨f, hf, .inr rfl⟩)))⟩)
          (by
            intro sp hs
            have hF := hfac sp hs
            obtain ⟨i, f, hi, hf, rfl⟩ := (hsp sp).1 hs
            obtain ⟨h1, h2, h3⟩ := hbd i f hi hf
            exact ⟨hF.of_le h1 (by simp only [splitOf] at h2 h3 ⊢; omega), hF.of_le (by simp only [splitOf] at h1 h2 ⊢; omega) h3⟩)
        have hgd := splitGuards_exec (m := onThread m th) (hmt th).lim (hfit.of_le (by omega) (room_ge_one _)) sch.splits σ1 x3
        have hany : (sch.splits.any fun sp => sp.tailGuard && decide (sp.orig.extent ≤ valOf (Sched.spatials sch) v sp.o * sp.factor + valOf (Sched.spatials sch) v sp.i)) = !decide (ValidIdx (g.shape a) (E v)) := by
          rw [Bool.eq_iff_iff, List.any_eq_true, Bool.not_eq_true', decide_eq_false_iff_not, enc_valid_iff hp hnd hL.fac hv]
          constructor
          · rintro ⟨sp, hs, h⟩ hall
            obtain ⟨i, f, hi, hf, rfl⟩ := (hsp sp).1 hs
            obtain ⟨h1, h2⟩ := (Bool.and_eq_true_iff).1 h
            have h1 : geti (g.shape a) i % f ≠ 0 := of_decide_eq_true h1
            have h2 := of_decide_eq_true h2
            simp only [splitOf] at h2
            have := hall i f hi hf (fun hd => h1 (Int.emod_eq_zero_of_dvd hd))
            rw [encIdx, geti_map_range' hi, hf] at this
            simp only at this
            omega
          · intro hn
            push Not at hn
            obtain ⟨i, f, hi, hf, hd, hge⟩ := hn
            refine ⟨_, (hsp _).2 ⟨i, f, hi, hf, rfl⟩, ?_⟩
            rw [encIdx, geti_map_range' hi, hf] at hge
            exact (Bool.and_eq_true_iff).2 ⟨decide_eq_true (p := geti (g.shape a) i % f ≠ 0) (fun h0 => hd (Int.dvd_of_emod_eq_zero h0)), decide_eq_true (by simpa only [splitOf] using hge)⟩
        rw [hany] at hgd
        by_cases hev : ValidIdx (g.shape a) (E v)
        · have hx4 : ∀ y, (∀ j, y ≠ .loop false j) → σ1 y = σ y := by
            intro y hy
            refine x4 y (fun hm => ?_)
            obtain ⟨sp, hs, rfl⟩ := List.mem_map.1 hm
            obtain ⟨i, f, _, _, rfl⟩ := (hsp sp).1 hs
            exact hy i rfl
          have h1 := elem_ok hwf hE hr (hmt th) hlen hg hev (σ := σ1) (by
              intro j hj
              have hj : j < (g.shape a).length := hj
              simp only [E]
              rw [encIdx, geti_map_range' hj]
              cases hf : fac j with
              | none =>
                rw [x4]
                · exact hval _ (hin j hj _ (mem_partOf.2 (.inl ⟨hf, rfl⟩)))
                · intro hm
                  obtain ⟨sp, hs, e⟩ := List.mem_map.1 hm
                  obtain ⟨i, f, _, hf', rfl⟩ := (hsp sp).1 hs
                  simp only [splitOf, VName.loop.injEq, true_and] at e
                  rw [e, hf] at hf'; cases hf'
              | some f => exact x3 _ ((hsp _).2 ⟨j, f, hj, hf, rfl⟩)) ⟨by
            intro j _
            rw [hx4 _ (by simp)]
            exact hnone _ (fun h => by rcases hform _ h with ⟨_, _, e⟩ | ⟨_, e⟩ | ⟨_, e⟩ <;> cases e), by
            rw [hx4 _ (by simp)]
            exact hnone _ (fun h => by rcases hform _ h with ⟨_, _, e⟩ | ⟨_, e⟩ | ⟨_, e⟩ <;> cases e), by
            intro p
            rw [hx4 _ (by simp)]
            exact hnone _ (fun h => by rcases hform _ h with ⟨_, _, e⟩ | ⟨_, e⟩ | ⟨_, e⟩ <;> cases e)⟩ hfit
          obtain ⟨σ', e, hl⟩ := h1.seq
          refine ⟨σ', false, ?_, x2.trans hl, by simp⟩
          rw [exec, x1]
          simp only [Option.bind_eq_bind, Option.bind_some, Bool.false_eq_true, if_false]
          rw [exec, hgd]
          simp only [hev, decide_true, Bool.not_true, Option.bind_eq_bind, Option.bind_some, Bool.false_eq_true, if_false, e, pure, List.nil_append, W, if_true]
          rfl
        · refine ⟨σ1, true, ?_, x2, fun _ => ?_⟩
          · rw [exec, x1]
            simp only [Option.bind_eq_bind, Option.bind_some, Bool.false_eq_true, if_false]
            rw [exec, hgd]
            simp only [hev, decide_false, Bool.not_false, Option.bind_eq_bind, Option.bind_some, if_true, pure, List.nil_append, W, if_false]
          · simp only [fl, decide_eq_true_eq]
            exact ⟨v, hv', hev⟩)
  refine ⟨fun r hr => ?_, key.2⟩
  obtain ⟨ws, e, hpw⟩ := key.1 r hr
  exact ⟨ws, e, hpw.trans htot⟩

/-! ### the automatic schedule -/

theorem gpu_scheduled {F : Func} {sch : Schedule} (h : Sched.schedule true F = .ok sch) : GpuScheduled F sch := by
  have hz : ∀ lv ∈ Sched.spatials (Sched.init F), ∃ l ∈ F.outLoops, lv = ⟨l.name, l.extent⟩ := by
    intro lv hlv
    rw [spatials_init] at hlv
    obtain ⟨l, hl, rfl⟩ := List.mem_map.1 hlv
    exact ⟨l, hl, rfl⟩
  have hsplit : ∀ {lv : LoopVar} {o i : LoopVar} {s : Schedule}, lv ∈ Sched.spatials (Sched.init F) → Sched.split (Sched.init F) lv Sched.blockSize = .ok ((o, i), s) → GpuScheduled F s := by
    intro lv o i s hlv hs
    obtain ⟨l, hl, rfl⟩ := hz lv hlv
    exact GpuScheduled.init.split hl (by decide) hs
  simp only [Sched.schedule, if_true] at h
  unfold Sched.gpu at h
  split at h
  · cases h; exact .init
  · rename_i a hs
    obtain ⟨⟨⟨o, i⟩, s1⟩, e1, h⟩ := except_bind_ok h
    obtain ⟨s2, e2, h⟩ := except_bind_ok h
    exact ((hsplit (by rw [hs]; simp) e1).mode (by simp) (by simp) e2).mode (by simp) (by simp) h
  · rename_i a b hs
    obtain ⟨⟨⟨o, i⟩, s1⟩, e1, h⟩ := except_bind_ok h
    obtain ⟨s2, e2, h⟩ := except_bind_ok h
    obtain ⟨s3, e3, h⟩ := except_bind_ok h
    exact (((hsplit (by rw [hs]; simp) e1).mode (by simp) (by simp) e2).mode (by simp) (by simp) e3).mode (by simp) (by simp) h
  · rename_i a b c hs
    obtain ⟨⟨⟨o, i⟩, s1⟩, e1, h⟩ := except_bind_ok h
    obtain ⟨s2, e2, h⟩ := except_bind_ok h
    obtain ⟨s3, e3, h⟩ := except_bind_ok h
    obtain ⟨s4, e4, h⟩ := except_bind_ok h
    exact ((((hsplit (by rw [hs]; simp) e1).mode (by simp) (by simp) e2).mode (by simp) (by simp) e3).mode (by simp) (by simp) e4).mode (by simp) (by simp) h
  · rename_i hne _ _ _
    obtain ⟨⟨⟨o, i⟩, s1⟩, e1, h⟩ := except_bind_ok h
    obtain ⟨s2, e2, h⟩ := except_bind_ok h
    refine ((hsplit ?_ e1).mode (by simp) (by simp) e2).mode (by simp) (by simp) h
    have hne' : Sched.spatials (Sched.init F) ≠ [] := fun e => hne e
    rw [List.getLastD_eq_getLast?, List.getLast?_eq_some_getLast hne']
    exact List.getLast_mem hne'

theorem gpu_wellBound {g : Graph V} {a : Nat} {F : Func} (hE : EntryOK g a F) {sch : Schedule} (h : Sched.schedule true F = .ok sch) : WellBound sch := by
  have hL := (gpu_scheduled h).laid hE
  by_cases h0 : F.outLoops.length = 0
  · have hol : F.outLoops = [] := List.eq_nil_of_length_eq_zero h0
    have hsch : Sched.schedule true F = .ok (Sched.init F) := by
      simp [Sched.schedule, Sched.gpu, spatials_init, hol, pure, Except.pure]
    obtain rfl : Sched.init F = sch := by rw [hsch] at h; exact Except.ok.inj h
    have hsq : ∀ l ∈ (Sched.init F).loops, hwIndex l.exec = none := by
      simp only [Sched.init, hol, List.map_nil, List.nil_append]
      intro l hl; obtain ⟨_, _, rfl⟩ := List.mem_map.1 hl; rfl
    refine ⟨?_, fun l hl h => absurd (hsq l hl) h, fun sp hs => by simp [Sched.init] at hs⟩
    rw [List.filterMap_eq_nil_iff.2 hsq]; exact List.nodup_nil
  · have hnames : F.outLoops.map (·.name) = (List.range (g.ndim a)).map (VName.loop false) := by rw [hE.loops, outLoops_names]
    obtain ⟨sch', vs, z, pre, rd, d', hsch, hf⟩ := gpu_form (F := F) h0 (by rw [hnames]; exact loopNames_nodup _) (by
      rw [hE.loops]; intro l hl; exact (mem_outLoops hl).2)
    obtain rfl : sch' = sch := by rw [show Sched.schedule true F = .ok sch' by simpa [Sched.schedule] using hsch] at h; exact Except.ok.inj h
    obtain ⟨fac, hL⟩ := hL
    refine ⟨hf.bound, fun l hl hb => ?_, fun sp hs _ l hl hn => ?_⟩
    · rw [hf.loops, List.mem_append, List.mem_append] at hl
      rcases hl with hl | hl | hl
      · exact hf.kind l hl
      · simp only [splitLoops, List.mem_cons, List.not_mem_nil, or_false] at hl
        rcases hl with rfl | rfl <;> rfl
      · rw [hf.redSeq l hl] at hb; exact absurd rfl hb
    · rw [hf.splits, List.mem_singleton] at hs
      subst hs
      rw [hf.loops, List.mem_append, List.mem_append] at hl
      rcases hl with hl | hl | hl
      · have : l.lv ∈ F.outLoops.map lvOf := by rw [hf.out, ← hf.lvs]; exact List.mem_append_left _ (List.mem_map_of_mem hl)
        obtain ⟨x, _, e⟩ := List.mem_map.1 this
        rcases hn with hn | hn <;> rw [← e] at hn <;> simp [lvOf, LoopIndex.name] at hn
      · simp only [splitLoops, List.mem_cons, List.not_mem_nil, or_false] at hl
        rcases hl with rfl | rfl <;> simp [hwIndex]
      · obtain ⟨p, e⟩ := hL.red l (by rw [hf.loops]; simp [hl]) (hf.red l hl)
        rcases hn with hn | hn <;> rw [hn] at e <;> simp at e

/-! ### demonstration -/

/-- What a launch of a kernel without parallel loops leaves: the stores of all threads. -/
theorem launch_det {m : Machine V} {sch : Schedule} {body : Stmt} (hb : noPar body = true) (h : ∀ t ∈ threads sch, (exec (onThread m t) body (fun _ => none)).isSome = true) {r : Option (List (Int × V))}
    (hr : launch m sch body r) : ∃ ws, r = some ws ∧ ws.Perm ((threads sch).flatMap fun t => writesOf (exec (onThread m t) body (fun _ => none))) := by
  obtain ⟨f, hf, h1⟩ := hr
  have hf' : ∀ t ∈ threads sch, f t = exec (onThread m t) body (fun _ => none) := fun t ht => (par_det hb _ _).1 (hf t ht)
  rcases h1 with ⟨_, ws, hi, rfl⟩ | ⟨hn, _⟩
  · refine ⟨ws, rfl, hi.perm.trans ?_⟩
    rw [← List.flatMap_def]
    exact List.Perm.flatMap_left _ fun t ht => by rw [hf' t ht]
  · exact absurd (fun t ht => by rw [hf' t ht]; exact h t ht) hn

/-- Applies a step; for GPU schedules. -/
def applyG (s : Schedule) : SOp → Option Schedule
  | .mode p e => if gpuMode e then (Sched.setExec s (s.loops.getD p default).lv e).toOption else none
  | o => applyOp s o

/-- Only the steps covered by `GpuScheduled`. -/
def goodG (F : Func) (s : Schedule) : SOp → Bool
  | .mode _ _ => true
  | .split p _ => decide (∃ l ∈ F.outLoops, (⟨l.name, l.extent⟩ : LoopVar) = (s.loops.getD p default).lv)
  | .reorder ps => decide (ps.map fun p => (s.loops.getD p default).lv).Nodup && ps.all fun p => (s.loops.getD p default).kind == .spatial

def applyGs (F : Func) : Schedule → List SOp → Option Schedule
  | s, [] => some s
  | s, o :: os => if goodG F s o then (applyG s o).bind fun s' => applyGs F s' os else none

theorem applyG_scheduled {F : Func} {s s' : Schedule} {o : SOp} (hs : GpuScheduled F s) (hg : goodG F s o = true) (h : applyG s o = some s') : GpuScheduled F s' := by
  cases o with
  | mode p e =>
    simp only [applyG] at h
    split at h
    · rename_i he; exact hs.mode (by rintro rfl; cases he) (by rintro rfl; cases he) (toOption_some h)
    · cases h
  | split p f =>
    simp only [applyG, applyOp] at h
    split at h
    · rename_i hc
      obtain ⟨⟨⟨o, i⟩, s1⟩, h1, rfl⟩ := Option.map_eq_some_iff.1 h
      simp only [goodG, decide_eq_true_eq] at hg
      obtain ⟨l, hl, e⟩ := hg
      rw [← e] at h1
      exact hs.split hl hc.1 (toOption_some h1)
    · cases h
  | reorder ps =>
    simp only [applyG, applyOp] at h
    split at h
    · rename_i hc
      simp only [goodG, Bool.and_eq_true, decide_eq_true_eq, List.all_eq_true, beq_iff_eq] at hg
      refine hs.reorder hg.1 (fun lv hlv => ?_) (toOption_some h)
      obtain ⟨p, hp, rfl⟩ := List.mem_map.1 hlv
      exact ⟨s.loops.getD p default, by rw [getD_lt (hc p hp)]; exact List.getElem_mem _, hg.2 p hp, rfl⟩
    · cases h

theorem applyGs_scheduled {F : Func} {os : List SOp} : ∀ {s s' : Schedule}, GpuScheduled F s → applyGs F s os = some s' → GpuScheduled F s' := by
  induction os with
  | nil => intro s s' hs h; cases h; exact hs
  | cons o os ih =>
    intro s s' hs h
    rw [applyGs] at h
    split at h
    · rename_i hg
      obtain ⟨s1, h1, h2⟩ := Option.bind_eq_some_iff.1 h
      exact ih (applyG_scheduled hs hg h1) h2
    · cases h

/-- The GPU kernel for `f` with the schedule obtained by `os`. -/
def genG (g : Graph V) (a f : Nat) (os : List SOp) : Option (List Nat × Schedule × Kernel) :=
  match Algo.convert g a with
  | .error _ => none
  | .ok (funcs, t) => match t f with
    | none => none
    | some F => match applyGs F (Sched.init F) os with
      | none => none
      | some sch => match Codegen.codegen g t F sch ⟨(Algo.args F.expr).1, (Algo.args F.expr).2⟩ 0 with
        | .error _ => none
        | .ok (K, _) => if f ∈ funcs then some ((Algo.args F.expr).1 ++ (Algo.args F.expr).2, sch, K) else none

theorem genG_scheduled {g : Graph V} {a f : Nat} {os : List SOp} {r : List Nat × Schedule × Kernel} (h : genG g a f os = some r) :
    GeneratesWith g a f r.1 GpuScheduled r.2.1 r.2.2 := by
  unfold genG at h
  split at h
  · cases h
  rename_i funcs t e
  split at h
  · cases h
  rename_i F hF
  split at h
  · cases h
  rename_i sch hs
  split at h
  · cases h
  rename_i K n' hK
  split at h
  · rename_i hm; cases h
    exact ⟨funcs, t, F, 0, n', e, hm, hF, rfl, applyGs_scheduled .init hs, hK⟩
  · cases h

end Whale
