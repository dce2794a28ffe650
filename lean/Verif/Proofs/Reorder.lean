import Verif.Spec.Reorder
import Verif.Proofs.KernelGpu
import Verif.Proofs.Sort
/-
Reordering the loops of a schedule.
-/
namespace Whale

theorem findIdx_name {s : Schedule} (hnd : (s.loops.map (·.lv.name)).Nodup) {lv : LoopVar} {p : Nat} (hp : p < s.loops.length) (h : (s.loops[p]).lv = lv) :
    Sched.index s lv = .ok p := by
  have hsplit : s.loops = s.loops.take p ++ s.loops[p] :: s.loops.drop (p + 1) := by simp
  have := index_at (s := s) (lv := lv) (l1 := s.loops.take p) (x := s.loops[p]) (l2 := s.loops.drop (p + 1)) hsplit (by rw [h]) (fun l hl e => by
    rw [hsplit, List.map_append, List.nodup_append] at hnd
    exact hnd.2.2 _ (List.mem_map.2 ⟨l, hl, rfl⟩) _ (List.mem_map.2 ⟨s.loops[p], List.mem_cons_self, rfl⟩) (by rw [e, h]))
  rw [this]; simp; omega


/-- One step of `reorder`. -/
def putLv (ls : List LoopSched) (p : Nat × LoopVar) : List LoopSched := ls.set p.1 { ls.getD p.1 default with lv := p.2 }

theorem putLv_ne {ls : List LoopSched} {p : Nat × LoopVar} {q : Nat} (h : q ≠ p.1) : (putLv ls p).getD q default = ls.getD q default := by
  unfold putLv
  rw [List.getD_eq_getElem?_getD, List.getElem?_set_ne (Ne.symm h), List.getD_eq_getElem?_getD]

theorem putLv_eq {ls : List LoopSched} {p : Nat × LoopVar} (h : p.1 < ls.length) : (putLv ls p).getD p.1 default = { ls.getD p.1 default with lv := p.2 } := by
  unfold putLv
  rw [List.getD_eq_getElem?_getD, List.getElem?_set_self h]; rfl

theorem putLv_spec : ∀ (ps : List (Nat × LoopVar)) (ls : List LoopSched), (ps.map (·.1)).Nodup → (∀ p ∈ ps, p.1 < ls.length) →
    (ps.foldl putLv ls).length = ls.length ∧ (∀ p ∈ ps, (ps.foldl putLv ls).getD p.1 default = { ls.getD p.1 default with lv := p.2 }) ∧
      ∀ q, q ∉ ps.map (·.1) → (ps.foldl putLv ls).getD q default = ls.getD q default
  | [], ls, _, _ => by simp
  | p :: ps, ls, hnd, hlt => by
    simp only [List.map_cons, List.nodup_cons] at hnd
    have hl : (putLv ls p).length = ls.length := List.length_set
    obtain ⟨h1, h2, h3⟩ := putLv_spec ps (putLv ls p) hnd.2 (fun q hq => by rw [hl]; exact hlt q (by simp [hq]))
    rw [List.foldl_cons]
    refine ⟨h1.trans hl, fun q hq => ?_, fun q hq => ?_⟩
    · rcases List.mem_cons.1 hq with rfl | hq
      · rw [h3 q.1 hnd.1, putLv_eq (hlt q (by simp))]
      · rw [h2 q hq, putLv_ne (fun e => hnd.1 (e ▸ List.mem_map.2 ⟨q, hq, rfl⟩))]
    · simp only [List.map_cons, List.mem_cons, not_or] at hq
      rw [h3 q hq.2, putLv_ne hq.1]

theorem mapM_index {s : Schedule} {lvs : List LoopVar} {pos : LoopVar → Nat} (h : ∀ lv ∈ lvs, Sched.index s lv = .ok (pos lv)) :
    lvs.mapM (Sched.index s) = .ok (lvs.map pos) := by
  induction lvs with
  | nil => rfl
  | cons lv lvs ih =>
    rw [List.mapM_cons, h lv (by simp), ih fun x hx => h x (by simp [hx])]; rfl

theorem mem_positions {s : Schedule} {lvs : List LoopVar} {p : Nat} : p ∈ positions s lvs ↔ p < s.loops.length ∧ (s.loops.getD p default).lv ∈ lvs := by
  simp [positions]

theorem positions_pairwise (s : Schedule) (lvs : List LoopVar) : (positions s lvs).Pairwise (fun a b => b < a) := by
  unfold positions
  rw [List.pairwise_reverse]
  exact (List.pairwise_lt_range (n := s.loops.length)).filter _

theorem getD_lt {α : Type} [Inhabited α] {l : List α} {p : Nat} (h : p < l.length) : l.getD p default = l[p] := by
  rw [List.getD_eq_getElem?_getD, List.getElem?_eq_getElem h]; rfl

theorem lv_inj {s : Schedule} (hnd : (s.loops.map (·.lv.name)).Nodup) {p q : Nat} (hp : p < s.loops.length) (hq : q < s.loops.length)
    (h : (s.loops.getD p default).lv = (s.loops.getD q default).lv) : p = q := by
  rw [getD_lt hp, getD_lt hq] at h
  have h1 := findIdx_name hnd hp rfl
  have h2 := findIdx_name hnd hq rfl
  rw [h, h2] at h1
  cases h1; rfl

theorem reorder_spec {s : Schedule} (hnd : (s.loops.map (·.lv.name)).Nodup) {lvs : List LoopVar} (hd : lvs.Nodup) (hin : ∀ lv ∈ lvs, ∃ l ∈ s.loops, l.lv = lv) :
    ∃ s', Sched.reorder s lvs = .ok s' ∧ s'.splits = s.splits ∧ s'.loops.length = s.loops.length ∧
      (s'.loops.map (·.lv)).Perm (s.loops.map (·.lv)) ∧
      (positions s lvs).map (fun p => (s'.loops.getD p default).lv) = lvs ∧
      (∀ p, (s'.loops.getD p default).kind = (s.loops.getD p default).kind ∧ (s'.loops.getD p default).exec = (s.loops.getD p default).exec ∧
        ((s.loops.getD p default).lv ∉ lvs → (s'.loops.getD p default).lv = (s.loops.getD p default).lv)) := by
  have hpos : ∀ lv ∈ lvs, ∃ p, p < s.loops.length ∧ (s.loops.getD p default).lv = lv := by
    intro lv hlv
    obtain ⟨l, hl, e⟩ := hin lv hlv
    obtain ⟨p, hp, rfl⟩ := List.mem_iff_getElem.1 hl
    exact ⟨p, hp, by rw [getD_lt hp, e]⟩
  let pos : LoopVar → Nat := fun lv => if h : lv ∈ lvs then (hpos lv h).choose else 0
  have hp1 : ∀ lv ∈ lvs, pos lv < s.loops.length ∧ (s.loops.getD (pos lv) default).lv = lv := by
    intro lv h
    simp only [pos, dif_pos h]
    exact (hpos lv h).choose_spec
  have hidx : lvs.mapM (Sched.index s) = .ok (lvs.map pos) := mapM_index fun lv h => findIdx_name hnd (hp1 lv h).1 (by rw [← getD_lt]; exact (hp1 lv h).2)
  have hndp : (lvs.map pos).Nodup := by
    unfold List.Nodup
    rw [List.pairwise_map]
    exact List.Pairwise.imp_of_mem (fun {a b} ha hb hne e => hne (by rw [← (hp1 a ha).2, ← (hp1 b hb).2, e])) hd
  have hperm : ((lvs.map pos).pySort (fun a b => decide (b ≤ a))).Perm (lvs.map pos) := List.pySort_perm _ _
  have hpp : (lvs.map pos).Perm (positions s lvs) := by
    rw [List.perm_ext_iff_of_nodup hndp ((positions_pairwise s lvs).imp (fun h => Nat.ne_of_gt h))]
    intro p
    rw [mem_positions, List.mem_map]
    constructor
    · rintro ⟨lv, h, rfl⟩; exact ⟨(hp1 lv h).1, by rw [(hp1 lv h).2]; exact h⟩
    · rintro ⟨h1, h2⟩; exact ⟨_, h2, lv_inj hnd (hp1 _ h2).1 h1 (hp1 _ h2).2⟩
  have hsort : (lvs.map pos).pySort (fun a b => decide (b ≤ a)) = positions s lvs := by
    apply List.Perm.eq_of_pairwise (le := fun a b => b ≤ a) (fun a b _ _ h1 h2 => Nat.le_antisymm h2 h1)
    · exact (List.pairwise_pySort (le := fun a b : Nat => decide (b ≤ a)) (by simp; omega) (by simp; omega) _).imp (fun h => by simpa using h)
    · exact (positions_pairwise s lvs).imp Nat.le_of_lt
    · exact hperm.trans hpp
  have hlen : (positions s lvs).length = lvs.length := by rw [← hpp.length_eq, List.length_map]
  have hfst : ((positions s lvs).zip lvs).map (·.1) = positions s lvs := List.map_fst_zip (by omega)
  have hsnd : ((positions s lvs).zip lvs).map (·.2) = lvs := List.map_snd_zip (by omega)
  obtain ⟨r1, r2, r3⟩ := putLv_spec ((positions s lvs).zip lvs) s.loops (by rw [hfst]; exact (positions_pairwise s lvs).imp (fun h => Nat.ne_of_gt h))
    (fun p hp => (mem_positions.1 (hfst ▸ List.mem_map.2 ⟨p, hp, rfl⟩ : p.1 ∈ positions s lvs)).1)
  rw [hfst] at r3
  have hres : (positions s lvs).map (fun p => ((((positions s lvs).zip lvs).foldl putLv s.loops).getD p default).lv) = lvs := by
    have : (((positions s lvs).zip lvs).map (·.1)).map (fun p => ((((positions s lvs).zip lvs).foldl putLv s.loops).getD p default).lv)
        = ((positions s lvs).zip lvs).map (·.2) := by
      rw [List.map_map]
      apply List.map_congr_left
      intro p hp
      simp only [Function.comp_apply]
      rw [r2 p hp]
    rw [hfst, hsnd] at this
    exact this
  refine ⟨{ s with loops := ((positions s lvs).zip lvs).foldl putLv s.loops }, (by simp only [Sched.reorder, hidx, bind, Except.bind, pure, Except.pure, hsort]; rfl), rfl, r1, ?_, hres, fun p => ?_⟩
  · have hmap : ∀ ls : List LoopSched, ls.length = s.loops.length → (ls.map (·.lv)).Perm
        ((positions s lvs).map (fun p => (ls.getD p default).lv) ++ (((List.range s.loops.length).filter fun p => !decide ((s.loops.getD p default).lv ∈ lvs)).map (fun p => (ls.getD p default).lv))) := by
      intro ls hl
      have e : ls.map (·.lv) = (List.range s.loops.length).map (fun p => (ls.getD p default).lv) := by
        apply List.ext_getElem (by simp [hl])
        intro n h1 h2
        simp only [List.getElem_map, List.getElem_range]
        rw [getD_lt (by simpa using h1)]
      rw [e, ← List.map_append]
      apply List.Perm.map
      exact ((List.filter_append_perm (fun p => decide ((s.loops.getD p default).lv ∈ lvs)) (List.range s.loops.length)).symm).trans
        ((List.reverse_perm _).symm.append_right _)
    refine (hmap _ r1).trans (List.Perm.trans ?_ (hmap s.loops rfl).symm)
    refine List.Perm.append ?_ (List.Perm.of_eq ?_)
    · rw [hres]
      have h1 := hpp.map (fun p => (s.loops.getD p default).lv)
      rw [List.map_map] at h1
      refine List.Perm.trans (List.Perm.of_eq ?_) h1
      refine (List.map_id lvs).symm.trans ?_
      exact List.map_congr_left fun lv h => (hp1 lv h).2.symm
    · apply List.map_congr_left
      intro p hp
      have hp' : p ∉ positions s lvs := fun h => by
        have h1 := (mem_positions.1 h).2
        have h2 := (List.mem_filter.1 hp).2
        rw [decide_eq_true h1] at h2
        cases h2
      exact congrArg LoopSched.lv (r3 p hp')
  · by_cases hp : p ∈ positions s lvs
    · rw [← hfst] at hp
      obtain ⟨x, hx, rfl⟩ := List.mem_map.1 hp
      refine ⟨(congrArg LoopSched.kind (r2 x hx)).trans rfl, (congrArg LoopSched.exec (r2 x hx)).trans rfl, fun hn => ?_⟩
      rw [hfst] at hp
      exact absurd (mem_positions.1 hp).2 hn
    · refine ⟨?_, ?_, fun _ => ?_⟩ <;> (show _ = _; simp only [r3 p hp])

theorem reorder_unknown {s : Schedule} {lvs : List LoopVar} {lv : LoopVar} (hm : lv ∈ lvs) (h : ∀ l ∈ s.loops, l.lv.name ≠ lv.name) :
    Sched.reorder s lvs = .error .loopNotFound := by
  have hi : Sched.index s lv = .error .loopNotFound := by
    unfold Sched.index
    have : s.loops.findIdx? (fun l => l.lv.name == lv.name) = none := by
      rw [List.findIdx?_eq_none_iff]
      intro l hl
      simpa using h l hl
    rw [this]; rfl
  have : lvs.mapM (Sched.index s) = .error .loopNotFound := by
    induction lvs with
    | nil => cases hm
    | cons x xs ih =>
      rw [List.mapM_cons]
      cases hx : Sched.index s x with
      | error e =>
        unfold Sched.index at hx
        split at hx <;> cases hx
        rfl
      | ok p =>
        rcases List.mem_cons.1 hm with rfl | hm
        · rw [hi] at hx; cases hx
        · simp only [bind, Except.bind, ih hm]
  simp only [Sched.reorder, this, bind, Except.bind]

end Whale
