import Verif.Proofs.MkExpr
/-
Reductions: the reduced loops together with the output loops enumerate exactly the input elements of one output element.
-/
namespace Whale
open Algo
variable {V : Type} [Lim]

/-- Keep the entries whose mask is false (spatial axes). -/
def spat {α : Type} : List Bool → List α → List α
  | true :: m, _ :: l => spat m l
  | false :: m, x :: l => x :: spat m l
  | _, _ => []

/-- Keep the entries whose mask is true (reduced axes). -/
def redu {α : Type} : List Bool → List α → List α
  | true :: m, x :: l => x :: redu m l
  | false :: m, _ :: l => redu m l
  | _, _ => []

/-- Interleave spatial and reduced entries. -/
def weave {α : Type} : List Bool → List α → List α → List α
  | [], _, _ => []
  | true :: m, sp, r :: rs => r :: weave m sp rs
  | false :: m, s :: sp, rs => s :: weave m sp rs
  | _, _, _ => []

def axisMask (axis : List Nat) (k n : Nat) : List Bool := (List.range' k n).map (fun d => decide (d ∈ axis))

@[simp] theorem axisMask_succ (axis : List Nat) (k n : Nat) : axisMask axis k (n+1) = decide (k ∈ axis) :: axisMask axis (k+1) n := by
  simp [axisMask, List.range'_succ]

@[simp] theorem axisMask_zero (axis : List Nat) (k : Nat) : axisMask axis k 0 = [] := rfl

@[simp] theorem length_axisMask (axis : List Nat) (k n : Nat) : (axisMask axis k n).length = n := by simp [axisMask]

theorem zipIdx_filter_spat {α : Type} (axis : List Nat) (l : List α) (k : Nat) :
    ((l.zipIdx k).filter (fun p => decide (p.2 ∉ axis))).map (·.1) = spat (axisMask axis k l.length) l := by
  induction l generalizing k with
  | nil => rfl
  | cons x l ih =>
    simp only [List.zipIdx_cons, List.length_cons, axisMask_succ]
    by_cases h : k ∈ axis
    · have := ih (k+1); simp only [decide_not] at this; simp [h, spat, this]
    · have := ih (k+1); simp only [decide_not] at this; simp [h, spat, this]

/-- The row-major enumeration of the elements over one output position. -/
theorem filter_indices {m : List Bool} {s sp : List Int} (hl : m.length = s.length) (hv : ValidIdx (spat m s) sp) :
    (indices s).filter (fun j => decide (spat m j = sp)) = (indices (redu m s)).map (weave m sp) := by
  induction m generalizing s sp with
  | nil => cases s with
    | nil => simp [spat] at hv; subst hv; simp [indices, spat, redu, weave]
    | cons _ _ => simp at hl
  | cons b m ih => cases s with
    | nil => simp at hl
    | cons n s =>
      have hl' : m.length = s.length := by simpa using hl
      cases b with
      | true =>
        simp only [spat] at hv
        simp only [indices, redu, List.filter_flatMap, List.map_flatMap, List.filter_map, List.map_map, Function.comp_def, weave]
        congr 1; funext i
        rw [show (indices s).filter (fun j => decide (spat (true :: m) (i :: j) = sp)) = _ from ih hl' hv, List.map_map]; rfl
      | false =>
        simp only [spat] at hv
        cases sp with
        | nil => simp at hv
        | cons x sp =>
          simp only [validIdx_cons] at hv
          have ih := ih hl' hv.2
          simp only [indices, redu, List.filter_flatMap, List.filter_map, Function.comp_def, spat, weave, List.cons.injEq]
          have key : ∀ l : List Int, l.Nodup →
              (l.flatMap fun i => ((indices s).filter fun j => decide (i = x ∧ spat m j = sp)).map (i :: ·)) =
              if x ∈ l then (indices (redu m s)).map (fun r => x :: weave m sp r) else [] := by
            intro l hn
            induction l with
            | nil => simp
            | cons i l ihl =>
              rw [List.nodup_cons] at hn
              rw [List.flatMap_cons, ihl hn.2]
              by_cases hix : i = x
              · subst hix
                simp only [true_and, ih, hn.1, List.mem_cons, true_or, if_true, if_false, List.append_nil, List.map_map]
                rfl
              · have : x ≠ i := fun e => hix e.symm
                simp [hix, this]
          rw [key _ (nodup_irange n), if_pos (mem_irange.2 hv.1)]

/-! the code's bookkeeping -/

theorem evalIs_spat {ρ : LEnv} {m : List Bool} {ls : List LoopIndex} {vs : List Int} (h : evalIs ρ (ls.map .index) = some vs) :
    evalIs ρ ((spat m ls).map .index) = some (spat m vs) := by
  induction m generalizing ls vs with
  | nil => simp [spat, evalIs]
  | cons b m ih => cases ls with
    | nil => simp [evalIs] at h; subst h; cases b <;> simp [spat, evalIs]
    | cons l ls =>
      simp only [List.map_cons, evalIs, Option.bind_eq_bind, Option.bind_eq_some_iff, pure, Option.some.injEq] at h
      obtain ⟨x, hx, xs, hxs, rfl⟩ := h
      cases b with
      | true => simpa [spat] using ih hxs
      | false => simp only [spat, List.map_cons, evalIs, hx, ih hxs]; rfl

theorem evalIs_weave {ρ : LEnv} {m : List Bool} {sp rs : List LoopIndex} {vs ws : List Int} (h : evalIs ρ (sp.map .index) = some vs)
    (h' : evalIs ρ (rs.map .index) = some ws) : evalIs ρ ((weave m sp rs).map .index) = some (weave m vs ws) := by
  induction m generalizing sp rs vs ws with
  | nil => simp [weave, evalIs]
  | cons b m ih => cases b with
    | true => cases rs with
      | nil => simp [evalIs] at h'; subst h'; simp [weave, evalIs]
      | cons l ls =>
        simp only [List.map_cons, evalIs, Option.bind_eq_bind, Option.bind_eq_some_iff, pure, Option.some.injEq] at h'
        obtain ⟨x, hx, xs, hxs, rfl⟩ := h'
        simp only [weave, List.map_cons, evalIs, hx, ih h hxs]; rfl
    | false => cases sp with
      | nil => simp [evalIs] at h; subst h; simp [weave, evalIs]
      | cons l ls =>
        simp only [List.map_cons, evalIs, Option.bind_eq_bind, Option.bind_eq_some_iff, pure, Option.some.injEq] at h
        obtain ⟨x, hx, xs, hxs, rfl⟩ := h
        simp only [weave, List.map_cons, evalIs, hx, ih hxs h']; rfl

/-- Invariant of the construction of the dict of reduced loops. -/
structure DictInv (a : Nat) (s : List Int) (pre : List Nat) (i : Nat) (d : List (Nat × LoopIndex)) : Prop where
  sorted : d.Pairwise (fun p q => p.1 < q.1 ∧ p.2.pos ≠ q.2.pos)
  mem : ∀ k, (∃ l, (k, l) ∈ d) ↔ k ∈ pre
  pos : ∀ p ∈ d, p.2.pos < i
  val : ∀ p ∈ d, p.2.owner = a ∧ p.2.red = true ∧ p.2.extent = geti s p.1

theorem reducedDict_inv (a : Nat) (s : List Int) (rest pre : List Nat) (i : Nat) (d : List (Nat × LoopIndex))
    (hs : (pre ++ rest).Pairwise (· ≤ ·)) (hd : DictInv a s pre i d) :
    DictInv a s (pre ++ rest) (i + rest.length) ((rest.zipIdx i).foldl (fun d p =>
      let l : LoopIndex := { owner := a, red := true, pos := p.2, extent := geti s p.1 }
      if d.any (fun q => q.1 == p.1) then d.map (fun q => if q.1 == p.1 then (q.1, l) else q) else d ++ [(p.1, l)]) d) := by
  induction rest generalizing pre i d with
  | nil => simpa using hd
  | cons x rest ih =>
    rw [List.zipIdx_cons, List.foldl_cons]
    have e1 : pre ++ x :: rest = (pre ++ [x]) ++ rest := by simp
    have e2 : i + (x :: rest).length = (i + 1) + rest.length := by simp; omega
    rw [e1, e2]
    apply ih (pre ++ [x]) (i+1) _ (by rw [← e1]; exact hs)
    have hle : ∀ k ∈ pre, k ≤ x := by
      intro k hk
      rw [List.pairwise_append] at hs
      exact hs.2.2 k hk x (by simp)
    simp only
    split
    · rename_i hany
      simp only [List.any_eq_true, beq_iff_eq] at hany
      obtain ⟨q0, hq0, hqx⟩ := hany
      refine ⟨?_, ?_, ?_, ?_⟩
      · rw [List.pairwise_map]
        apply hd.sorted.imp_of_mem
        intro p q hp hq hpq
        have pp := hd.pos p hp
        have pq := hd.pos q hq
        by_cases h1 : p.1 = x <;> by_cases h2 : q.1 = x <;> simp [h1, h2] <;> omega
      · intro k
        have := hd.mem k
        simp only [List.mem_map, List.mem_append, List.mem_singleton]
        constructor
        · rintro ⟨l, q, hq, he⟩
          by_cases hx : q.1 = x
          · simp only [hx, beq_self_eq_true, if_true, Prod.mk.injEq] at he; right; exact he.1.symm
          · have hx' : (q.1 == x) = false := by simpa using hx
            simp only [hx', Bool.false_eq_true, if_false] at he
            subst he; left; exact this.1 ⟨_, hq⟩
        · rintro (hk | rfl)
          · obtain ⟨l, hl⟩ := this.2 hk
            by_cases hx : k = x
            · exact ⟨⟨a, true, i, geti s x⟩, (k, l), hl, by simp [hx]⟩
            · exact ⟨l, (k, l), hl, by simp [hx]⟩
          · exact ⟨⟨a, true, i, geti s k⟩, q0, hq0, by simp [hqx]⟩
      · intro p hp
        simp only [List.mem_map] at hp
        obtain ⟨q, hq, rfl⟩ := hp
        have := hd.pos q hq
        split <;> simp <;> omega
      · intro p hp
        simp only [List.mem_map] at hp
        obtain ⟨q, hq, rfl⟩ := hp
        have := hd.val q hq
        by_cases hx : q.1 = x
        · simp [hx]
        · simp [hx, this]
    · rename_i hany
      have hnx : x ∉ pre := by
        intro hx
        obtain ⟨l, hl⟩ := (hd.mem x).2 hx
        apply hany
        simp only [List.any_eq_true, beq_iff_eq]
        exact ⟨_, hl, rfl⟩
      refine ⟨?_, ?_, ?_, ?_⟩
      · rw [List.pairwise_append]
        refine ⟨hd.sorted, by simp, ?_⟩
        intro p hp q hq
        simp only [List.mem_singleton] at hq; subst hq
        have h1 := (hd.mem p.1).1 ⟨_, hp⟩
        have h2 := hle _ h1
        have h3 := hd.pos p hp
        have h4 : p.1 ≠ x := fun e => hnx (e ▸ h1)
        simp only; omega
      · intro k
        simp only [List.mem_append, List.mem_singleton, Prod.mk.injEq]
        constructor
        · rintro ⟨l, h | h⟩
          · left; exact (hd.mem k).1 ⟨_, h⟩
          · right; exact h.1
        · rintro (h | h)
          · obtain ⟨l, hl⟩ := (hd.mem k).2 h; exact ⟨l, Or.inl hl⟩
          · exact ⟨_, Or.inr ⟨h, rfl⟩⟩
      · intro p hp
        rcases List.mem_append.1 hp with h | h
        · have := hd.pos p h; omega
        · simp only [List.mem_singleton] at h; subst h; simp
      · intro p hp
        rcases List.mem_append.1 hp with h | h
        · exact hd.val p h
        · simp only [List.mem_singleton] at h; subst h; simp

theorem lookup_of_mem {d : List (Nat × LoopIndex)} (hn : (d.map (·.1)).Nodup) {k : Nat} {l : LoopIndex} (h : (k, l) ∈ d) :
    d.lookup k = some l := by
  induction d with
  | nil => simp at h
  | cons p d ih =>
    rw [List.map_cons, List.nodup_cons] at hn
    rcases List.mem_cons.1 h with rfl | h
    · simp [List.lookup]
    · have hne : (k == p.1) = false := by
        rw [beq_eq_false_iff_ne]; intro e; exact hn.1 (List.mem_map.2 ⟨_, h, by simp [e]⟩)
      simp only [List.lookup, hne]; exact ih hn.2 h

/-- The dict of reduced loops: keys are the reduced axes in increasing order. -/
theorem reducedDict_spec {a : Nat} {s : List Int} {axis : List Nat} (hax : ∀ k ∈ axis, k < s.length) :
    (reducedDict a s axis.pySort).map (·.1) = (List.range s.length).filter (fun k => decide (k ∈ axis)) ∧
    (∀ p ∈ reducedDict a s axis.pySort, p.2.owner = a ∧ p.2.red = true ∧ p.2.extent = geti s p.1) ∧
    ((reducedDict a s axis.pySort).map (·.2)).Nodup ∧ (((reducedDict a s axis.pySort).map (·.2)).map (·.pos)).Nodup := by
  have hsort : (axis.pySort).Pairwise (· ≤ ·) := by
    have := List.pairwise_pySort (le := fun i j : Nat => decide (i ≤ j))
      (fun a b c h1 h2 => by simp only [decide_eq_true_eq] at *; omega) (fun a b => by simp; omega) axis
    exact this.imp (fun h => by simpa using h)
  have hperm := List.pySort_perm axis (fun i j : Nat => decide (i ≤ j))
  have inv := reducedDict_inv a s axis.pySort [] 0 [] (by simpa using hsort) ⟨by simp, by simp, by simp, by simp⟩
  simp only [List.nil_append] at inv
  have inv : DictInv a s axis.pySort (0 + axis.pySort.length) (reducedDict a s axis.pySort) := inv
  have hks : ((reducedDict a s axis.pySort).map (·.1)).Pairwise (· < ·) := by
    rw [List.pairwise_map]; exact inv.sorted.imp (fun h => h.1)
  refine ⟨?_, inv.val, ?_, ?_⟩
  · have hr : ((List.range s.length).filter (fun k => decide (k ∈ axis))).Pairwise (· < ·) := (List.pairwise_lt_range).filter _
    apply List.Perm.eq_of_pairwise (le := (· < ·)) (fun a b _ _ h1 h2 => by omega) hks hr
    rw [List.perm_ext_iff_of_nodup (hks.imp (fun h => by omega)) (hr.imp (fun h => by omega))]
    intro k
    simp only [List.mem_map, List.mem_filter, List.mem_range, decide_eq_true_eq]
    constructor
    · rintro ⟨p, hp, rfl⟩
      have := hperm.mem_iff.1 ((inv.mem p.1).1 ⟨_, hp⟩)
      exact ⟨hax _ this, this⟩
    · rintro ⟨_, hk⟩
      obtain ⟨l, hl⟩ := (inv.mem k).2 (hperm.mem_iff.2 hk)
      exact ⟨_, hl, rfl⟩
  · unfold List.Nodup
    rw [List.pairwise_map]
    exact inv.sorted.imp (fun h e => h.2 (by rw [e]))
  · unfold List.Nodup
    rw [List.pairwise_map, List.pairwise_map]
    exact inv.sorted.imp (fun h e => h.2 e)

theorem reduceIdx_ok {red : List (Nat × LoopIndex)} {axis : List Nat} (k n : Nat) (sp : List LoopIndex) (rs : List LoopIndex)
    (hlook : ((List.range' k n).filter (fun d => decide (d ∈ axis))).map (fun d => red.lookup d) = rs.map some)
    (hsp : sp.length = ((axisMask axis k n).filter (· = false)).length) :
    reduceIdx red axis (List.range' k n) sp = .ok ((weave (axisMask axis k n) sp rs).map .index) := by
  induction n generalizing k sp rs with
  | zero => simp [reduceIdx, weave, pure, Except.pure]
  | succ n ih =>
    rw [List.range'_succ, axisMask_succ] at *
    by_cases h : k ∈ axis
    · simp only [h, decide_true, List.filter_cons_of_pos, List.map_cons] at hlook
      cases rs with
      | nil => simp at hlook
      | cons r rs =>
        simp only [List.map_cons, List.cons.injEq] at hlook
        simp only [reduceIdx, h, if_true, hlook.1, decide_true, weave, List.map_cons]
        rw [ih (k+1) sp rs hlook.2 (by simpa [h] using hsp)]
        rfl
    · have hl' : ((List.range' (k+1) n).filter (fun d => decide (d ∈ axis))).map (fun d => red.lookup d) = rs.map some := by
        simpa [h] using hlook
      cases sp with
      | nil => simp [h] at hsp
      | cons s sp =>
        simp only [reduceIdx, h, if_false, decide_false, weave, List.map_cons]
        rw [ih (k+1) sp rs hl' (by simpa [h] using hsp)]
        rfl

theorem redu_range {α : Type} (axis : List Nat) (f : Nat → α) (k n : Nat) :
    redu (axisMask axis k n) ((List.range' k n).map f) = ((List.range' k n).filter (fun d => decide (d ∈ axis))).map f := by
  induction n generalizing k with
  | zero => rfl
  | succ n ih =>
    rw [List.range'_succ, axisMask_succ, List.map_cons]
    by_cases h : k ∈ axis <;> simp [h, redu, ih]

theorem range_geti (s : List Int) : s = (List.range s.length).map (geti s) := by
  apply ext_geti (by simp)
  intro k hk; rw [geti_map_range _ _ _ hk]

theorem length_spat {α : Type} {m : List Bool} {l : List α} (h : m.length = l.length) : (spat m l).length = (m.filter (· = false)).length := by
  induction m generalizing l with
  | nil => simp [spat]
  | cons b m ih => cases l with
    | nil => simp at h
    | cons x l => cases b <;> simp [spat, ih (by simpa using h)]

theorem spat_map {α β : Type} (f : α → β) (m : List Bool) (l : List α) : spat m (l.map f) = (spat m l).map f := by
  induction m generalizing l with
  | nil => simp [spat]
  | cons b m ih => cases l with
    | nil => cases b <;> simp [spat]
    | cons x l => cases b <;> simp [spat, ih]

theorem mem_spat {α : Type} {m : List Bool} {l : List α} {x : α} (h : x ∈ spat m l) : x ∈ l := by
  induction m generalizing l with
  | nil => simp [spat] at h
  | cons b m ih => cases l with
    | nil => cases b <;> simp [spat] at h
    | cons y l => cases b with
      | true => exact List.mem_cons_of_mem _ (ih h)
      | false =>
        rcases List.mem_cons.1 h with rfl | h
        · simp
        · exact List.mem_cons_of_mem _ (ih h)

theorem mem_weave {α : Type} {m : List Bool} {l r : List α} {x : α} (h : x ∈ weave m l r) : x ∈ l ∨ x ∈ r := by
  induction m generalizing l r with
  | nil => simp [weave] at h
  | cons b m ih => cases b with
    | true => cases r with
      | nil => simp [weave] at h
      | cons y r =>
        rcases List.mem_cons.1 h with rfl | h
        · simp
        · rcases ih h with h | h
          · exact Or.inl h
          · exact Or.inr (List.mem_cons_of_mem _ h)
    | false => cases l with
      | nil => simp [weave] at h
      | cons y l =>
        rcases List.mem_cons.1 h with rfl | h
        · simp
        · rcases ih h with h | h
          · exact Or.inl (List.mem_cons_of_mem _ h)
          · exact Or.inr h

theorem length_weave {α : Type} {m : List Bool} {l r : List α} (hl : l.length = (m.filter (· = false)).length)
    (hr : r.length = (m.filter (· = true)).length) : (weave m l r).length = m.length := by
  induction m generalizing l r with
  | nil => simp [weave]
  | cons b m ih => cases b with
    | true => cases r with
      | nil => simp at hr
      | cons y r => simp [weave, ih (l := l) (r := r) (by simpa using hl) (by simpa using hr)]
    | false => cases l with
      | nil => simp at hl
      | cons y l => simp [weave, ih (l := l) (r := r) (by simpa using hl) (by simpa using hr)]

end Whale
