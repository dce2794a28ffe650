import Verif.Spec.Slice
import Verif.Proofs.ApiS
/-
The code's slice arithmetic selects what Python selects.
-/
namespace Whale
variable {V : Type}

theorem eq_of_sorted_mem {l m : List Int} (hl : l.Pairwise (· < ·)) (hm : m.Pairwise (· < ·)) (h : ∀ x, x ∈ l ↔ x ∈ m) : l = m := by
  have nl : l.Nodup := hl.imp (fun h e => by omega)
  have nm : m.Nodup := hm.imp (fun h e => by omega)
  exact List.Perm.eq_of_pairwise (le := (· < ·)) (fun a b _ _ h1 h2 => by omega) hl hm ((List.perm_ext_iff_of_nodup nl nm).2 h)

theorem irange_pairwise (n : Int) : (irange n).Pairwise (· < ·) := by
  unfold irange
  rw [List.pairwise_map]
  exact List.pairwise_lt_range.imp (fun h => by simp only [Int.ofNat_eq_natCast]; omega)

theorem mem_sliceLen {a b c k : Int} (hc : 0 < c) : k < Tensor.sliceLen a b c ↔ k < 0 ∨ a + k * c < b := by
  unfold Tensor.sliceLen
  have key : k < (b - a + c - 1) / c ↔ a + k * c < b := by
    rw [Int.lt_iff_add_one_le, Int.le_ediv_iff_mul_le hc]
    have : (k + 1) * c = k * c + c := by rw [Int.add_mul]; omega
    omega
  rw [← key]
  omega

theorem slice_positions {n a b c : Int} (hc : 0 < c) (ha : 0 ≤ a) (hb : b ≤ n) :
    (irange n).filter (fun k => decide (a ≤ k ∧ k < b ∧ (k - a) % c = 0)) = (irange (Tensor.sliceLen a b c)).map (fun k => a + k * c) := by
  apply eq_of_sorted_mem
  · exact (irange_pairwise n).filter _
  · rw [List.pairwise_map]
    refine (irange_pairwise _).imp (fun {x y} h => ?_)
    have := Int.mul_lt_mul_of_pos_right h hc
    omega
  · intro x
    simp only [List.mem_filter, mem_irange, decide_eq_true_eq, List.mem_map]
    constructor
    · rintro ⟨⟨h0, h1⟩, h2, h3, h4⟩
      have hd := Int.mul_ediv_cancel' (Int.dvd_of_emod_eq_zero h4)
      refine ⟨(x - a) / c, ⟨Int.ediv_nonneg (by omega) (by omega), ?_⟩, ?_⟩
      · rw [mem_sliceLen hc]; right
        rw [Int.mul_comm]; omega
      · rw [Int.mul_comm]; omega
    · rintro ⟨k, ⟨h0, h1⟩, rfl⟩
      have h2 := (mem_sliceLen hc).1 h1
      have h3 : 0 ≤ k * c := Int.mul_nonneg h0 (by omega)
      have h4 : a + k * c < b := by omega
      refine ⟨⟨by omega, by omega⟩, by omega, h4, ?_⟩
      have : a + k * c - a = k * c := by omega
      rw [this]; exact Int.mul_emod_left k c

theorem filter_congr_lo {n lo hi c : Int} (hc : 0 < c) (h0 : 0 ≤ lo) :
    (irange n).filter (fun k => decide (lo ≤ k ∧ k < hi ∧ (k - lo) % c = 0)) =
    (irange n).filter (fun k => decide (max 0 (min lo n) ≤ k ∧ k < max 0 (min hi n) ∧ (k - max 0 (min lo n)) % c = 0)) := by
  apply List.filter_congr
  intro k hk
  rw [mem_irange] at hk
  by_cases hle : lo ≤ n
  · have e : max 0 (min lo n) = lo := by omega
    rw [e]
    congr 1
    apply propext
    constructor <;> rintro ⟨h1, h2, h3⟩ <;> exact ⟨h1, by omega, h3⟩
  · have e : max 0 (min lo n) = max 0 n := by omega
    rw [e]
    congr 1
    apply propext
    constructor <;> rintro ⟨h1, h2, h3⟩ <;> omega

/-- A normalised subscript selects what the specification says. -/
def SubPick : Sub → Pick → Prop
  | .int i, .one p => i = p
  | .slice a b c, .many l => l = (irange (Tensor.sliceLen a b c)).map (fun k => a + k * c)
  | _, _ => False

theorem normSub_pick {n : Int} (hn : 0 ≤ n) (r : RawSub) :
    (∃ s p, ND.normSub n r = .ok s ∧ pickSub n r = some p ∧ SubPick s p) ∨ ((∃ e, ND.normSub n r = .error e) ∧ pickSub n r = none) := by
  cases r with
  | other => right; exact ⟨⟨_, rfl⟩, rfl⟩
  | int i =>
    by_cases h : -n ≤ i ∧ i < n
    · left
      refine ⟨.int (if i < 0 then i + n else i), .one (if i < 0 then i + n else i), ?_, ?_, rfl⟩
      · simp only [ND.normSub]
        rw [if_pos (by split <;> omega)]; rfl
      · simp only [pickSub]; rw [if_pos h]
    · right
      refine ⟨⟨.indexOutOfBounds, ?_⟩, ?_⟩
      · simp only [ND.normSub]
        rw [if_neg (by split <;> omega)]; rfl
      · simp only [pickSub]; rw [if_neg h]
  | slice st sp step =>
    by_cases h : 0 < step.getD 1
    · left
      refine ⟨.slice (max 0 (min (if st.getD 0 < 0 then st.getD 0 + n else st.getD 0) n)) (max 0 (min (if sp.getD n < 0 then sp.getD n + n else sp.getD n) n)) (step.getD 1),
        .many (pySlice n st sp (step.getD 1)), ?_, ?_, ?_⟩
      · simp only [ND.normSub]
        rw [if_neg (by omega)]; rfl
      · simp only [pickSub]; rw [if_pos h]
      · simp only [SubPick, pySlice]
        have e1 : sliceLo n st = max 0 (if st.getD 0 < 0 then st.getD 0 + n else st.getD 0) := by
          cases st with
          | none => simp [sliceLo]
          | some i => simp [sliceLo]
        have e2 : sliceHi n sp = (if sp.getD n < 0 then sp.getD n + n else sp.getD n) := by
          cases sp with
          | none => simp [sliceHi]; omega
          | some i => simp [sliceHi]
        rw [e1, e2]
        generalize (if st.getD 0 < 0 then st.getD 0 + n else st.getD 0) = lo
        generalize (if sp.getD n < 0 then sp.getD n + n else sp.getD n) = hi
        rw [filter_congr_lo h (by omega : 0 ≤ max 0 lo), ← slice_positions (n := n) h (by omega) (by omega)]
        have e3 : max 0 (min (max 0 lo) n) = max 0 (min lo n) := by omega
        rw [e3]
    · right
      refine ⟨⟨.badStep, ?_⟩, ?_⟩
      · simp only [ND.normSub]
        rw [if_pos (by omega)]; rfl
      · simp only [pickSub]; rw [if_neg h]

/-- Pointwise. -/
def SubPicks : List Sub → List Pick → Prop
  | [], [] => True
  | s :: ss, p :: ps => SubPick s p ∧ SubPicks ss ps
  | _, _ => False

theorem whole_pick {n : Int} (hn : 0 ≤ n) : pickSub n (.slice none none none) = some (.many (irange n)) := by
  simp only [pickSub, Option.getD_none, Int.zero_lt_one, if_true]
  congr 2
  unfold pySlice
  apply List.filter_eq_self.2
  intro k hk
  rw [mem_irange] at hk
  simp [Int.emod_one, sliceLo, sliceHi]; omega

theorem picks_pad {s : List Int} (hs : NonNeg s) {rs : List RawSub} (hl : rs.length ≤ s.length) :
    picks s (rs ++ List.replicate (s.length - rs.length) (RawSub.slice none none none)) = picks s rs := by
  induction s generalizing rs with
  | nil => cases rs <;> simp_all
  | cons n s ih =>
    rw [NonNeg.cons] at hs
    cases rs with
    | nil =>
      have := ih hs.2 (rs := []) (by simp)
      simp only [List.nil_append, List.length_nil, Nat.sub_zero] at this
      simp only [List.nil_append, List.length_nil, Nat.sub_zero, List.length_cons, List.replicate_succ, picks, whole_pick hs.1, this]
      cases picks s [] <;> rfl
    | cons r rs =>
      simp only [List.cons_append, List.length_cons, Nat.succ_sub_succ, picks]
      rw [ih hs.2 (by simpa using hl)]

theorem picks_too_many {s : List Int} {rs : List RawSub} (h : s.length < rs.length) : picks s rs = none := by
  induction s generalizing rs with
  | nil => cases rs <;> simp_all [picks]
  | cons n s ih => cases rs with
    | nil => simp at h
    | cons r rs =>
      simp only [picks]
      rw [ih (by simpa using h)]
      cases pickSub n r <;> rfl

theorem normSubs_picks {s : List Int} (hs : NonNeg s) {rs : List RawSub} (hl : rs.length = s.length) :
    (∃ subs ps, ND.normSubs s rs = .ok subs ∧ picks s rs = some ps ∧ SubPicks subs ps) ∨ ((∃ e, ND.normSubs s rs = .error e) ∧ picks s rs = none) := by
  induction s generalizing rs with
  | nil => cases rs with
    | nil => left; exact ⟨[], [], rfl, rfl, trivial⟩
    | cons r rs => simp at hl
  | cons n s ih => cases rs with
    | nil => simp at hl
    | cons r rs =>
      rw [NonNeg.cons] at hs
      rcases normSub_pick hs.1 r with ⟨s1, p1, e1, e2, e3⟩ | ⟨⟨e, e1⟩, e2⟩
      · rcases ih hs.2 (rs := rs) (by simpa using hl) with ⟨ss, ps, f1, f2, f3⟩ | ⟨⟨e, f1⟩, f2⟩
        · left
          refine ⟨s1 :: ss, p1 :: ps, ?_, ?_, e3, f3⟩
          · simp only [ND.normSubs, e1, f1, bind, Except.bind]; rfl
          · simp only [picks, e2, f2]
        · right
          refine ⟨⟨e, ?_⟩, ?_⟩
          · simp only [ND.normSubs, e1, f1, bind, Except.bind]
          · simp only [picks, e2, f2]
      · right
        refine ⟨⟨e, ?_⟩, ?_⟩
        · simp only [ND.normSubs, e1, bind, Except.bind]
        · simp only [picks, e2]

theorem sliceLen_nonneg (a b c : Int) : 0 ≤ Tensor.sliceLen a b c := by unfold Tensor.sliceLen; omega

theorem SubPicks.shape {subs : List Sub} {ps : List Pick} (h : SubPicks subs ps) : Tensor.sliceShape subs = pickShape ps := by
  induction subs generalizing ps with
  | nil => cases ps with
    | nil => rfl
    | cons p ps => exact h.elim
  | cons s ss ih => cases ps with
    | nil => exact h.elim
    | cons p ps =>
      obtain ⟨h1, h2⟩ := h
      cases s <;> cases p <;> try exact h1.elim
      · simp only [Tensor.sliceShape, pickShape]; exact ih h2
      · simp only [Tensor.sliceShape, pickShape, ih h2]
        simp only [SubPick] at h1
        subst h1
        rename_i a b c
        have := sliceLen_nonneg a b c
        simp [length_irange]; omega

theorem SubPicks.idx {subs : List Sub} {ps : List Pick} (h : SubPicks subs ps) {idx : List Int} (hi : ValidIdx (pickShape ps) idx) :
    Tensor.sliceIdx subs idx = pickIdx ps idx := by
  induction subs generalizing ps idx with
  | nil => cases ps with
    | nil => rfl
    | cons p ps => exact h.elim
  | cons s ss ih => cases ps with
    | nil => exact h.elim
    | cons p ps =>
      obtain ⟨h1, h2⟩ := h
      cases s <;> cases p <;> try exact h1.elim
      · simp only [Tensor.sliceIdx, pickIdx]
        simp only [SubPick] at h1
        rw [h1, ih h2 hi]
      · rename_i a b c l
        simp only [pickShape] at hi
        cases idx with
        | nil => simp at hi
        | cons k idx =>
          simp only [validIdx_cons] at hi
          simp only [Tensor.sliceIdx, pickIdx]
          rw [ih h2 hi.2]
          congr 1
          simp only [SubPick] at h1
          subst h1
          have hk : k.toNat < ((irange (Tensor.sliceLen a b c)).map (fun k => a + k * c)).length := by omega
          rw [geti_eq_getElem hk]
          have := hi.1.1
          simp [irange]
          rw [Int.max_eq_left this]

end Whale
