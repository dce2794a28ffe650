import Verif.Proofs.Vjp2
/-
The gradient rules of broadcast, pad, dilate and indexing.
-/
namespace Whale
open Bwd
variable {V : Type}

/-! ### broadcast -/

def bcastAxesN (gdim : Nat) (orig : List Int) : List Nat :=
  (List.range (gdim - orig.length)) ++ (orig.zipIdx.filter (fun p => p.1 = 1)).map (fun p => p.2 + (gdim - orig.length))

theorem bcastAxes_eq (gdim : Nat) (orig : List Int) : bcastAxes gdim orig = (bcastAxesN gdim orig).map Int.ofNat := rfl

theorem mem_ones {orig : List Int} {a n : Nat} :
    a ∈ (orig.zipIdx.filter (fun p => p.1 = 1)).map (fun p => p.2 + n) ↔ ∃ k < orig.length, geti orig k = 1 ∧ a = k + n := by
  simp only [List.mem_map, List.mem_filter, decide_eq_true_eq, Prod.exists, List.mem_zipIdx_iff_getElem?]
  constructor
  · rintro ⟨x, k, ⟨h1, rfl⟩, rfl⟩
    obtain ⟨hk, e⟩ := List.getElem?_eq_some_iff.1 h1
    exact ⟨k, hk, by rw [geti_eq_getElem hk, e], rfl⟩
  · rintro ⟨k, hk, e, rfl⟩
    exact ⟨1, k, ⟨by rw [List.getElem?_eq_getElem hk, ← geti_eq_getElem hk, e], rfl⟩, rfl⟩

theorem mem_bcastAxesN {gdim : Nat} {orig : List Int} {a : Nat} :
    a ∈ bcastAxesN gdim orig ↔ a < gdim - orig.length ∨ ∃ k < orig.length, geti orig k = 1 ∧ a = k + (gdim - orig.length) := by
  rw [bcastAxesN, List.mem_append, mem_ones, List.mem_range]

theorem normAxis_bcast {gdim : Nat} {orig : List Int} (hl : orig.length ≤ gdim) (h : gdim = orig.length → gdim ≠ 0 → 1 ∈ orig) :
    ND.normAxis gdim (.tuple (bcastAxes gdim orig)) = .ok (bcastAxesN gdim orig) := by
  have hlt : ∀ a ∈ bcastAxesN gdim orig, a < gdim := by
    intro a ha
    rcases mem_bcastAxesN.1 ha with h | ⟨k, hk, _, rfl⟩ <;> omega
  have hmap : ((bcastAxesN gdim orig).map Int.ofNat).map (fun a => (a % (gdim : Int)).toNat) = bcastAxesN gdim orig := by
    rw [List.map_map]
    conv => rhs; rw [← List.map_id (bcastAxesN gdim orig)]
    apply List.map_congr_left
    intro a ha
    have := hlt a ha
    have : ((a : Int) % (gdim : Int)) = a := Int.emod_eq_of_lt (by omega) (by omega)
    simp only [Function.comp, Int.ofNat_eq_natCast, this, id]; omega
  have hax : ND.axisList gdim (.tuple (bcastAxes gdim orig)) = (bcastAxesN gdim orig).map Int.ofNat := by
    show (if ((bcastAxesN gdim orig).map Int.ofNat).isEmpty = true then (List.range gdim).map Int.ofNat else (bcastAxesN gdim orig).map Int.ofNat) = _
    by_cases he : ((bcastAxesN gdim orig).map Int.ofNat).isEmpty = true
    · rw [if_pos he]
      have he' : bcastAxesN gdim orig = [] := by simpa using he
      rw [he']
      have h0 : gdim = 0 := by
        apply Decidable.byContradiction
        intro hne
        have h1 : gdim = orig.length := by
          apply Decidable.byContradiction
          intro hne2
          have : 0 ∈ bcastAxesN gdim orig := mem_bcastAxesN.2 (.inl (by omega))
          rw [he'] at this; simp at this
        obtain ⟨k, hk, e⟩ := List.mem_iff_getElem.1 (h h1 hne)
        have : k + (gdim - orig.length) ∈ bcastAxesN gdim orig := mem_bcastAxesN.2 (.inr ⟨k, hk, by rw [geti_eq_getElem hk, e], rfl⟩)
        rw [he'] at this; simp at this
      rw [h0]; rfl
    · rw [if_neg he]
  unfold ND.normAxis
  rw [hax]
  rw [if_neg]
  · rw [hmap]; rfl
  · rintro ⟨h0, hne⟩
    apply hne
    have : bcastAxesN gdim orig = [] := by
      apply List.eq_nil_iff_forall_not_mem.2
      intro a ha
      have := hlt a ha; omega
    rw [this]; rfl

theorem axisMask_bcast {gdim : Nat} {orig : List Int} (hl : orig.length ≤ gdim) :
    axisMask (bcastAxesN gdim orig) 0 gdim = List.replicate (gdim - orig.length) true ++ orig.map (fun d => decide (d = 1)) := by
  apply List.ext_getElem
  · simp; omega
  intro k h1 h2
  have hk : k < gdim := by simpa using h1
  have e := axisMask_getD (bcastAxesN gdim orig) gdim k hk
  rw [List.getD_eq_getElem?_getD, List.getElem?_eq_getElem h1] at e
  simp only [Option.getD_some] at e
  rw [e]
  by_cases hlt : k < gdim - orig.length
  · rw [List.getElem_append_left (by simpa using hlt)]
    simp [mem_bcastAxesN, hlt]
  · rw [List.getElem_append_right (by simpa using hlt)]
    simp only [List.length_replicate, List.getElem_map, decide_eq_decide]
    rw [mem_bcastAxesN]
    constructor
    · rintro (h | ⟨j, hj, e1, rfl⟩)
      · exact absurd h hlt
      · rw [geti_eq_getElem hj] at e1
        simpa using e1
    · intro h
      refine .inr ⟨k - (gdim - orig.length), by omega, ?_, by omega⟩
      rw [geti_eq_getElem (by omega)]; exact h

theorem maskSet_append {v : Int} {m m' : List Bool} {s s' : List Int} (h : m.length = s.length) :
    maskSet v (m ++ m') (s ++ s') = maskSet v m s ++ maskSet v m' s' := by
  unfold maskSet; exact List.zipWith_append h

theorem maskSet_true (v : Int) (s : List Int) : maskSet v (List.replicate s.length true) s = List.replicate s.length v := by
  induction s with
  | nil => rfl
  | cons d s ih => simp [List.replicate_succ, ih]

theorem maskSet_ones {s t : List Int} (h : bcastOK s t) : maskSet 1 (s.map (fun d => decide (d = 1))) t = s := by
  induction s generalizing t with
  | nil => rfl
  | cons a s ih => cases t with
    | nil => simp [bcastOK] at h
    | cons b t =>
      simp only [List.map_cons, maskSet_cons, ih h.2, decide_eq_true_eq]
      have := h.1
      split
      · rename_i e; rw [e]
      · rw [show b = a by omega]

theorem maskSet_idx (s i : List Int) : maskSet 0 (s.map (fun d => decide (d = 1))) i = bcastIdx s i := by
  induction s generalizing i with
  | nil => rfl
  | cons a s ih => cases i with
    | nil => rfl
    | cons b i =>
      have := ih i
      simp only [bcastIdx] at this ⊢
      simp [this]

theorem ravel_ones (n : Nat) (s j : List Int) : ravel (List.replicate n 1 ++ s) (List.replicate n 0 ++ j) = ravel s j := by
  induction n with
  | zero => rfl
  | succ n ih => simp [List.replicate_succ, ravel, ih]

theorem valid_ones (n : Nat) {s j : List Int} (h : ValidIdx s j) : ValidIdx (List.replicate n 1 ++ s) (List.replicate n 0 ++ j) := by
  induction n with
  | zero => exact h
  | succ n ih => simp only [List.replicate_succ, List.cons_append]; exact ⟨by omega, ih⟩

theorem prod_ones (n : Nat) (s : List Int) : prod (List.replicate n 1 ++ s) = prod s := by
  induction n with
  | zero => rfl
  | succ n ih => simp [List.replicate_succ, ih]

theorem broadcastRule_ok (A : Scalar V) {g : Graph V} (h : WF g) (hnn : NN g) {x gr : Nat} {s : List Int} (hx : x < g.length) (hg : gr < g.length)
    (hb : BroadcastsTo (g.shape x) s) (hsg : g.shape gr = s) (hgn : s.length = (g.shape x).length → s ≠ [] → 1 ∈ g.shape x) :
    ∃ ys g', broadcastRule g x gr = .ok (ys, g') ∧ RuleRes A g g' [x] ys [bcastVjp A (g.shape x) (den A g gr)] := by
  have hnd : g.ndim gr = s.length := by rw [Graph.ndim, hsg]
  have hna := normAxis_bcast (gdim := s.length) (orig := g.shape x) hb.1
    (fun e h0 => hgn e (by intro hs; rw [hs] at h0; exact h0 rfl))
  rw [← hnd] at hna
  obtain ⟨y, g1, e1, m1, d1⟩ := sum_s h hnn hg (kd := true) hna
  rw [hnd] at hna m1 d1 e1
  obtain ⟨s1, s2, hs12, hl1⟩ : ∃ s1 s2, s = s1 ++ s2 ∧ s1.length = s.length - (g.shape x).length :=
    ⟨s.take _, s.drop _, (List.take_append_drop (s.length - (g.shape x).length) s).symm, by simp⟩
  have hb2 : bcastOK (g.shape x) s2 := by
    have := hb.2
    rw [← hl1] at this
    conv at this => rhs; rw [hs12]
    simpa using this
  have hmask := axisMask_bcast hb.1
  have hshape : Tensor.sumShape (bcastAxesN s.length (g.shape x)) true (g.shape gr) = List.replicate s1.length 1 ++ g.shape x := by
    rw [sumShape_true, hsg, hmask, ← hl1]
    conv => lhs; rw [hs12]
    rw [maskSet_append (by simp), maskSet_true, maskSet_ones hb2]
  have hproj : ∀ i, i.length = s.length → Tensor.sumProj (bcastAxesN s.length (g.shape x)) true i =
      List.replicate s1.length 0 ++ bcastIdx (g.shape x) (i.drop s1.length) := by
    intro i hi
    rw [sumProj_true, hi, hmask, ← hl1]
    conv => lhs; rw [← List.take_append_drop s1.length i]
    have ht : (i.take s1.length).length = s1.length := by rw [List.length_take, hi, hs12]; simp
    rw [maskSet_append (by simp [ht]), maskSet_idx]
    congr 1
    have := maskSet_true 0 (i.take s1.length)
    rwa [ht] at this
  have hsum : ∀ j, (den A g1 y).get (List.replicate s1.length 0 ++ j) = (bcastVjp A (g.shape x) (den A g gr)).get j := by
    intro j
    rw [d1 A]
    simp only [Tensor.sum, bcastVjp]
    congr 1
    apply List.filter_congr
    intro i hi
    have hil : i.length = s.length := by
      have := (mem_indices.1 hi).length
      rwa [den_shape A h hg, hsg] at this
    rw [hproj i hil, den_shape A h hg, hsg, ← hl1]
    simp
  unfold broadcastRule
  simp only [hnd, e1, bind, Except.bind]
  rw [hshape] at m1
  by_cases h0 : s.length - (g.shape x).length = 0
  · rw [if_pos h0]
    rw [show s1.length = 0 by omega] at m1 hsum
    refine ⟨[y], g1, rfl, .one m1 (by simp) ⟨?_, fun j _ => ?_⟩⟩
    · rw [den_shape A m1.wf m1.lt, m1.shape]; simp [bcastVjp]
    · simpa using hsum j
  · rw [if_neg h0, m1.shape]
    rw [← hl1, show (List.replicate s1.length (1 : Int) ++ g.shape x).drop s1.length = g.shape x by simp]
    obtain ⟨r, g2, e2, m2, d2⟩ := reshape_s m1.wf m1.nn m1.lt (s := g.shape x) (by rw [m1.shape, prod_ones]) (hnn x hx).1
    refine ⟨[r], g2, by rw [e2]; rfl, .one (m1.trans m2) rfl ⟨?_, fun j hj => ?_⟩⟩
    · rw [den_shape A m2.wf m2.lt, m2.shape]; rfl
    · rw [den_shape A m2.wf m2.lt, m2.shape] at hj
      rw [d2 A]
      simp only [Tensor.reshape]
      rw [den_shape A m1.wf m1.lt, m1.shape, ← ravel_ones s1.length, unravel_ravel (valid_ones _ hj)]
      exact hsum j

/-! ### pad, dilate -/

theorem normSubs_map (s : List Int) (f : Nat → RawSub) (q : Nat → Sub) (h : ∀ k < s.length, ND.normSub (geti s k) (f k) = .ok (q k)) :
    ND.normSubs s ((List.range s.length).map f) = .ok ((List.range s.length).map q) := by
  induction s generalizing f q with
  | nil => rfl
  | cons d s ih =>
    rw [List.length_cons, List.range_succ_eq_map, List.map_cons, List.map_cons, List.map_map, List.map_map]
    have h0 := h 0 (by simp)
    have hr := ih (fun k => f (k + 1)) (fun k => q (k + 1)) (fun k hk => by simpa using h (k + 1) (by simpa using hk))
    rw [geti_cons_zero] at h0
    simp only [ND.normSubs, h0, bind, Except.bind]
    simp only [Function.comp_def, Nat.succ_eq_add_one]
    rw [hr]; rfl

theorem sliceShape_map (n : Nat) (a b c : Nat → Int) :
    Tensor.sliceShape ((List.range n).map fun k => .slice (a k) (b k) (c k)) = (List.range n).map fun k => Tensor.sliceLen (a k) (b k) (c k) := by
  induction n generalizing a b c with
  | zero => rfl
  | succ n ih =>
    rw [List.range_succ_eq_map, List.map_cons, List.map_cons, List.map_map, List.map_map]
    simp only [Tensor.sliceShape]
    congr 1
    exact ih (fun k => a (k + 1)) (fun k => b (k + 1)) (fun k => c (k + 1))

theorem sliceIdx_map (n : Nat) (a b c : Nat → Int) (j : List Int) (hj : j.length = n) :
    Tensor.sliceIdx ((List.range n).map fun k => .slice (a k) (b k) (c k)) j = (List.range n).map fun k => a k + geti j k * c k := by
  induction n generalizing a b c j with
  | zero => rfl
  | succ n ih =>
    cases j with
    | nil => simp at hj
    | cons i j =>
      rw [List.range_succ_eq_map, List.map_cons, List.map_cons, List.map_map, List.map_map]
      simp only [Tensor.sliceIdx, geti_cons_zero]
      congr 1
      have := ih (fun k => a (k + 1)) (fun k => b (k + 1)) (fun k => c (k + 1)) j (by simpa using hj)
      simpa [Function.comp_def] using this

theorem normSub_full {n : Int} (h : 0 ≤ n) : ND.normSub n (.slice none none none) = .ok (.slice 0 n 1) := by
  simp only [ND.normSub, Option.getD_none]
  rw [if_neg (by omega)]
  simp only [pure, Except.pure]
  congr 2
  · split <;> omega
  · split <;> omega

/-- Slicing along one axis only. -/
theorem getitem_axis {g : Graph V} (h : WF g) (hnn : NN g) {gr : Nat} (hg : gr < g.length) {dim : Int} (h0 : 0 ≤ dim) (h1 : dim < g.ndim gr)
    {rs : RawSub} {a b c : Int} (hs : ND.normSub (geti (g.shape gr) dim.toNat) rs = .ok (.slice a b c)) :
    ∃ r g', ND.getitem g gr ((List.range (g.ndim gr)).map fun (d : Nat) => if (d : Int) = dim then rs else RawSub.slice none none none) = .ok (r, g') ∧
      MadeS g g' r ((g.shape gr).set dim.toNat (Tensor.sliceLen a b c)) ∧
      ∀ (A : Scalar V) j, j.length = g.ndim gr → (den A g' r).get j = (den A g gr).get (j.set dim.toNat (a + geti j dim.toNat * c)) := by
  have hsub := normSubs_map (g.shape gr) (fun (d : Nat) => if (d : Int) = dim then rs else RawSub.slice none none none)
    (fun d => .slice (if d = dim.toNat then a else 0) (if d = dim.toNat then b else geti (g.shape gr) d) (if d = dim.toNat then c else 1)) (by
      intro k hk
      by_cases hkd : (k : Int) = dim
      · have : k = dim.toNat := by omega
        subst this
        simp only [hkd, if_true]; exact hs
      · have : k ≠ dim.toNat := by omega
        simp only [hkd, this, if_false]
        apply normSub_full
        rw [geti_eq_getElem hk]
        exact (hnn gr hg).1 _ (List.getElem_mem _))
  obtain ⟨r, g', e, m, _, d⟩ := getitem_s h hnn hg (rs := (List.range (g.ndim gr)).map fun (d : Nat) => if (d : Int) = dim then rs else RawSub.slice none none none)
    (by simp) (by simpa [Graph.ndim] using hsub)
  have hsh : Tensor.sliceShape ((List.range (g.shape gr).length).map fun d => Sub.slice (if d = dim.toNat then a else 0) (if d = dim.toNat then b else geti (g.shape gr) d) (if d = dim.toNat then c else 1))
      = (g.shape gr).set dim.toNat (Tensor.sliceLen a b c) := by
    rw [sliceShape_map]
    apply ext_geti (by simp)
    intro k hk
    have hk' : k < (g.shape gr).length := by simpa using hk
    rw [geti_map_range _ _ _ hk', geti_set]
    by_cases hkd : k = dim.toNat
    · subst hkd; simp [hk']
    · have : 0 ≤ geti (g.shape gr) k := by rw [geti_eq_getElem hk']; exact (hnn gr hg).1 _ (List.getElem_mem _)
      simp [hkd, Ne.symm hkd, Tensor.sliceLen]; omega
  rw [hsh] at m
  refine ⟨r, g', e, m, fun A j hj => ?_⟩
  rw [d A]
  simp only [Tensor.slice]
  rw [sliceIdx_map (g.shape gr).length _ _ _ _ hj]
  congr 1
  apply ext_geti (by simp [hj, Graph.ndim])
  intro k hk
  have hk' : k < (g.shape gr).length := by simpa using hk
  rw [geti_map_range _ _ _ hk', geti_set]
  by_cases hkd : k = dim.toNat
  · subst hkd
    have : dim.toNat < j.length := by rw [hj]; exact hk'
    simp [this]
  · simp [hkd, Ne.symm hkd]

theorem padRule_ok (A : Scalar V) {g : Graph V} (h : WF g) (hnn : NN g) {x gr : Nat} {dim b c : Int} (hx : x < g.length) (hg : gr < g.length)
    (h0 : 0 ≤ dim) (h1 : dim < g.ndim x) (hb : 0 ≤ b) (hc : 0 ≤ c)
    (hsg : g.shape gr = (g.shape x).set dim.toNat (geti (g.shape x) dim.toNat + (b + c))) :
    ∃ ys g', padRule g x dim b gr = .ok (ys, g') ∧
      RuleRes A g g' [x] ys [⟨g.shape x, fun j => (den A g gr).get (j.set dim.toNat (b + geti j dim.toNat))⟩] := by
  have hnd : g.ndim gr = g.ndim x := by simp [Graph.ndim, hsg]
  have hdl : dim.toNat < (g.shape x).length := by simp only [Graph.ndim] at h1; omega
  have hn : 0 ≤ geti (g.shape x) dim.toNat := by rw [geti_eq_getElem hdl]; exact (hnn x hx).1 _ (List.getElem_mem _)
  obtain ⟨r, g', e, m, d⟩ := getitem_axis h hnn hg h0 (by rw [hnd]; exact h1) (rs := .slice (some b) (some (b + geti (g.shape x) dim.toNat)) none)
    (a := b) (b := b + geti (g.shape x) dim.toNat) (c := 1) (by
      simp only [ND.normSub, Option.getD_some, Option.getD_none]
      rw [if_neg (by omega)]
      simp only [pure, Except.pure, hsg, geti_set, hdl, and_self, if_true]
      congr 2
      · split <;> omega
      · split <;> omega)
  refine ⟨[r], g', by simp only [padRule, e, bind, Except.bind]; rfl, .one m ?_ ⟨?_, fun j hj => ?_⟩⟩
  · rw [hsg, List.set_set]
    apply ext_geti (by simp)
    intro k _
    rw [geti_set]
    split
    · rename_i hk; rw [← hk.1]; simp only [Tensor.sliceLen]; omega
    · rfl
  · rw [den_shape A m.wf m.lt, m.shape]
    show _ = g.shape x
    rw [hsg, List.set_set]
    apply ext_geti (by simp)
    intro k _
    rw [geti_set]
    split
    · rename_i hk; rw [← hk.1]; simp only [Tensor.sliceLen]; omega
    · rfl
  · have hjl : j.length = g.ndim gr := by
      rw [hj.length, den_shape A m.wf m.lt, m.shape]; simp [Graph.ndim]
    rw [d A j hjl]; simp

theorem dilateRule_ok (A : Scalar V) {g : Graph V} (h : WF g) (hnn : NN g) {x gr : Nat} {dim st : Int} (hg : gr < g.length)
    (h0 : 0 ≤ dim) (h1 : dim < g.ndim x) (hst : 1 ≤ st) (hx : 0 ≤ geti (g.shape x) dim.toNat)
    (hsg : g.shape gr = (g.shape x).set dim.toNat ((geti (g.shape x) dim.toNat - 1) * st + 1)) :
    ∃ ys g', dilateRule g dim st gr = .ok (ys, g') ∧
      RuleRes A g g' [x] ys [⟨g.shape x, fun j => (den A g gr).get (j.set dim.toNat (geti j dim.toNat * st))⟩] := by
  have hnd : g.ndim gr = g.ndim x := by simp [Graph.ndim, hsg]
  have hdl : dim.toNat < (g.shape x).length := by simp only [Graph.ndim] at h1; omega
  have hgd : geti (g.shape gr) dim.toNat = (geti (g.shape x) dim.toNat - 1) * st + 1 := by
    rw [hsg, geti_set]; simp [hdl]
  have hn : 0 ≤ geti (g.shape gr) dim.toNat := by
    rw [geti_eq_getElem (by rw [hsg]; simpa using hdl)]; exact (hnn gr hg).1 _ (List.getElem_mem _)
  obtain ⟨r, g', e, m, d⟩ := getitem_axis h hnn hg h0 (by rw [hnd]; exact h1) (rs := .slice none none (some st))
    (a := 0) (b := geti (g.shape gr) dim.toNat) (c := st) (by
      simp only [ND.normSub, Option.getD_some, Option.getD_none]
      rw [if_neg (by omega)]
      simp only [pure, Except.pure]
      congr 2
      · split <;> omega
      · split <;> omega)
  have hlen : Tensor.sliceLen 0 (geti (g.shape gr) dim.toNat) st = geti (g.shape x) dim.toNat := by
    unfold Tensor.sliceLen
    rw [hgd]
    have : (geti (g.shape x) dim.toNat - 1) * st + 1 - 0 + st - 1 = geti (g.shape x) dim.toNat * st := by
      rw [Int.sub_mul]; omega
    rw [this, Int.mul_ediv_cancel _ (by omega)]; omega
  have hsh : (g.shape gr).set dim.toNat (Tensor.sliceLen 0 (geti (g.shape gr) dim.toNat) st) = g.shape x := by
    rw [hlen, hsg, List.set_set]
    apply ext_geti (by simp)
    intro k _
    rw [geti_set]
    split
    · rename_i hk; rw [← hk.1]
    · rfl
  rw [hsh] at m
  refine ⟨[r], g', by simp only [dilateRule, e, bind, Except.bind]; rfl, .one m rfl ⟨?_, fun j hj => ?_⟩⟩
  · rw [den_shape A m.wf m.lt, m.shape]
  · have hjl : j.length = g.ndim gr := by
      rw [hj.length, den_shape A m.wf m.lt, m.shape, hnd]; rfl
    rw [d A j hjl]; simp

end Whale
