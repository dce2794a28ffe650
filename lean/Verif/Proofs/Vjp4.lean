import Verif.Proofs.Vjp3
/-
The gradient rule of indexing: the incoming gradient is scattered to the selected positions, zero elsewhere.
-/
namespace Whale
open Bwd
variable {V : Type}

theorem unslice_iff {s : List Int} {subs : List Sub} (h : SubsOK s subs) {i j : List Int} (hj : j.length = s.length) :
    unslice subs j = some i ↔ ValidIdx (Tensor.sliceShape subs) i ∧ Tensor.sliceIdx subs i = j := by
  induction subs generalizing s i j with
  | nil => cases s with
    | nil =>
      have : j = [] := by simpa using hj
      subst this
      cases i <;> simp [unslice, Tensor.sliceShape, Tensor.sliceIdx]
    | cons d s => simp [SubsOK] at h
  | cons b r ih => cases s with
    | nil => cases b <;> simp [SubsOK] at h
    | cons d s => cases j with
      | nil => simp at hj
      | cons q j =>
        have hj' : j.length = s.length := by simpa using hj
        cases b with
        | int k =>
          have := ih h.2 (i := i) hj'
          simp only [unslice, Tensor.sliceShape, Tensor.sliceIdx, List.cons.injEq]
          by_cases hq : q = k
          · rw [if_pos hq, this]; simp [hq.symm]
          · rw [if_neg hq]; constructor
            · intro h; cases h
            · intro h; exact absurd h.2.1.symm hq
        | slice a b c =>
          have hc : 0 < c := h.1.2.2
          simp only [unslice, Tensor.sliceShape]
          constructor
          · intro hh
            split at hh
            · rename_i hcond
              obtain ⟨i', hi', rfl⟩ := Option.map_eq_some_iff.1 hh
              obtain ⟨v, e⟩ := (ih h.2 hj').1 hi'
              refine ⟨⟨⟨Int.ediv_nonneg (by omega) (by omega), hcond.2.2⟩, v⟩, ?_⟩
              simp only [Tensor.sliceIdx, e, List.cons.injEq, and_true]
              have := Int.mul_ediv_add_emod (q - a) c
              rw [hcond.2.1, Int.mul_comm] at this
              omega
            · cases hh
          · rintro ⟨v, e⟩
            cases i with
            | nil => simp at v
            | cons k i =>
              simp only [Tensor.sliceIdx, List.cons.injEq] at e
              obtain ⟨rfl, e⟩ := e
              have h5 : 0 ≤ k * c := Int.mul_nonneg v.1.1 (by omega)
              have e1 : a + k * c - a = k * c := by omega
              rw [e1, Int.mul_emod_left, Int.mul_ediv_cancel _ (by omega), if_pos ⟨by omega, rfl, v.1.2⟩, (ih h.2 hj').2 ⟨v.2, e⟩]
              rfl

theorem geti_append_len (P T : List Int) (x : Int) : geti (P ++ x :: T) P.length = x := by simp [geti]
theorem set_append_len (P T : List Int) (x v : Int) : (P ++ x :: T).set P.length v = P ++ v :: T := by simp

theorem ravel_insert {P p : List Int} (h : p.length = P.length) (T i : List Int) :
    ravel (P ++ 1 :: T) (p ++ 0 :: i) = ravel (P ++ T) (p ++ i) := by
  induction P generalizing p with
  | nil =>
    have : p = [] := by simpa using h
    subst this; simp [ravel]
  | cons a P ih => cases p with
    | nil => simp at h
    | cons b p =>
      have := ih (p := p) (by simpa using h)
      have hp : prod (P ++ 1 :: T) = prod (P ++ T) := by
        clear ih this h
        induction P with
        | nil => simp
        | cons c P ih => simp [ih]
      simp [ravel, this, hp]

theorem prod_insert (P T : List Int) : prod (P ++ 1 :: T) = prod (P ++ T) := by
  induction P with
  | nil => simp
  | cons c P ih => simp [ih]

theorem validIdx_append {P T p i : List Int} (h : p.length = P.length) : ValidIdx (P ++ T) (p ++ i) ↔ ValidIdx P p ∧ ValidIdx T i := by
  induction P generalizing p with
  | nil =>
    have : p = [] := by simpa using h
    subst this; simp
  | cons a P ih => cases p with
    | nil => simp at h
    | cons b p =>
      have := ih (p := p) (by simpa using h)
      simp [this, and_assoc]

theorem NonNeg.append {s t : List Int} : NonNeg (s ++ t) ↔ NonNeg s ∧ NonNeg t := by
  simp [NonNeg, or_imp, forall_and]

/-- One iteration with an integer subscript. -/
theorem sliceInt_ok (A : Scalar V) {g : Graph V} (h : WF g) (hnn : NN g) {gr : Nat} (hg : gr < g.length) {P T : List Int} {n s : Int}
    (hs0 : 0 ≤ s) (hs1 : s < n) (hsh : g.shape gr = P ++ T) :
    ∃ r1 g1 r2 g2, ND.reshape g gr ((g.shape gr).take P.length ++ [1] ++ (g.shape gr).drop P.length) = .ok (r1, g1) ∧
      ND.pad g1 r1 P.length s (n - s - 1) = .ok (r2, g2) ∧ MadeS g g2 r2 (P ++ n :: T) ∧
      ∀ p q i, ValidIdx P p → 0 ≤ q → q < n → ValidIdx T i →
        (den A g2 r2).get (p ++ q :: i) = if q = s then (den A g gr).get (p ++ i) else A.ofInt 0 := by
  have hgs := (hnn gr hg).1
  rw [hsh, NonNeg.append] at hgs
  have hshape1 : (g.shape gr).take P.length ++ [1] ++ (g.shape gr).drop P.length = P ++ 1 :: T := by rw [hsh]; simp
  rw [hshape1]
  obtain ⟨r1, g1, e1, m1, d1⟩ := reshape_s h hnn hg (s := P ++ 1 :: T) (by rw [hsh, prod_insert])
    (by rw [NonNeg.append, NonNeg.cons]; exact ⟨hgs.1, by omega, hgs.2⟩)
  have hge : geti (g1.shape r1) ((P.length : Int)).toNat = 1 := by rw [m1.shape]; simpa using geti_append_len P T 1
  obtain ⟨r2, g2, e2, m2, d2⟩ := pad_s m1.wf m1.nn m1.lt (dim := P.length) (b := s) (c := n - s - 1) (by omega)
    (by rw [Graph.ndim, m1.shape]; simp; omega) (by rw [hge]; omega)
  have hsh2 : (g1.shape r1).set ((P.length : Int)).toNat (geti (g1.shape r1) ((P.length : Int)).toNat + (s + (n - s - 1))) = P ++ n :: T := by
    rw [hge, m1.shape]
    rw [show ((P.length : Int)).toNat = P.length by omega, set_append_len]
    congr 2; omega
  rw [hsh2] at m2
  refine ⟨r1, g1, r2, g2, e1, e2, m1.trans m2, fun p q i hp h0 h1 hi => ?_⟩
  have hv : ValidIdx (P ++ n :: T) (p ++ q :: i) := (validIdx_append hp.length).2 ⟨hp, ⟨h0, h1⟩, hi⟩
  have hd2 := (d2 A).2 (p ++ q :: i) (by rw [den_shape A m2.wf m2.lt, m2.shape]; exact hv)
  rw [hd2]
  simp only [Tensor.pad]
  have hden : geti (den A g1 r1).shape ((P.length : Int)).toNat = 1 := by rw [den_shape A m1.wf m1.lt]; exact hge
  have hpl := hp.length
  rw [hden, show ((P.length : Int)).toNat = p.length by omega, geti_append_len, set_append_len]
  by_cases hq : q = s
  · rw [if_pos (by omega), if_pos hq, show q - s = 0 by omega, d1 A]
    simp only [Tensor.reshape]
    rw [ravel_insert hp.length, den_shape A h hg, hsh, unravel_ravel ((validIdx_append hp.length).2 ⟨hp, hi⟩)]
  · rw [if_neg (by omega), if_neg hq]

theorem sliceLen_bound {a b c n : Int} (ha : 0 ≤ a ∧ a ≤ n) (hb : 0 ≤ b ∧ b ≤ n) (hc : 0 < c) (hg : c = 1 ∨ a < b) :
    0 ≤ (Tensor.sliceLen a b c - 1) * c + 1 ∧ (Tensor.sliceLen a b c - 1) * c + 1 ≤ n - a := by
  unfold Tensor.sliceLen
  rcases hg with rfl | hlt
  · simp; omega
  · have h1 : 1 ≤ (b - a + c - 1) / c := (Int.le_ediv_iff_mul_le hc).2 (by omega)
    have h2 := Int.ediv_mul_le (b - a + c - 1) (show c ≠ 0 by omega)
    rw [show max 0 ((b - a + c - 1) / c) = (b - a + c - 1) / c by omega]
    have h3 : 0 ≤ ((b - a + c - 1) / c - 1) * c := Int.mul_nonneg (by omega) (by omega)
    rw [Int.sub_mul] at h3 ⊢
    omega

/-- One iteration with a slice subscript. -/
theorem sliceSlice_ok (A : Scalar V) {g : Graph V} (h : WF g) (hnn : NN g) {gr : Nat} (hg : gr < g.length) {P T : List Int} {n a b c : Int}
    (ha : 0 ≤ a ∧ a ≤ n) (hb : 0 ≤ b ∧ b ≤ n) (hc : 0 < c) (hgr : c = 1 ∨ a < b) (hsh : g.shape gr = P ++ Tensor.sliceLen a b c :: T) :
    ∃ r1 g1 r2 g2, (if c > 1 then ND.dilate g gr P.length c else pure (gr, g)) = .ok (r1, g1) ∧
      (if a > 0 ∨ n - a - geti (g1.shape r1) P.length > 0 then ND.pad g1 r1 P.length a (n - a - geti (g1.shape r1) P.length) else pure (r1, g1)) = .ok (r2, g2) ∧
      MadeS g g2 r2 (P ++ n :: T) ∧
      ∀ p q i, ValidIdx P p → 0 ≤ q → q < n → ValidIdx T i →
        (den A g2 r2).get (p ++ q :: i) = if a ≤ q ∧ (q - a) % c = 0 ∧ (q - a) / c < Tensor.sliceLen a b c
          then (den A g gr).get (p ++ (q - a) / c :: i) else A.ofInt 0 := by
  have hP : ((P.length : Int)).toNat = P.length := by omega
  have hlen := sliceLen_bound ha hb hc hgr
  have hge0 : geti (g.shape gr) ((P.length : Int)).toNat = Tensor.sliceLen a b c := by rw [hP, hsh, geti_append_len]
  have hndim : ((P.length : Int)) < g.ndim gr := by rw [Graph.ndim, hsh]; simp; omega
  obtain ⟨r1, g1, e1, m1, d1⟩ := dilate_s h hnn hg (dim := P.length) (st := c) (by omega) hndim (by omega) (by rw [hge0]; exact hlen.1)
  have e1' : (if c > 1 then ND.dilate g gr P.length c else pure (gr, g)) = .ok (r1, g1) := by
    by_cases hc1 : c > 1
    · rw [if_pos hc1]; exact e1
    · rw [if_neg hc1, ← e1]
      unfold ND.dilate
      rw [if_neg (by omega), if_pos (by omega)]
  have hs1 : (g.shape gr).set ((P.length : Int)).toNat ((geti (g.shape gr) ((P.length : Int)).toNat - 1) * c + 1) = P ++ ((Tensor.sliceLen a b c - 1) * c + 1) :: T := by
    rw [hge0, hP, hsh, set_append_len]
  rw [hs1] at m1
  have hge1 : geti (g1.shape r1) P.length = (Tensor.sliceLen a b c - 1) * c + 1 := by rw [m1.shape, geti_append_len]
  have hndim1 : ((P.length : Int)) < g1.ndim r1 := by rw [Graph.ndim, m1.shape]; simp; omega
  obtain ⟨r2, g2, e2, m2, d2⟩ := pad_s m1.wf m1.nn m1.lt (dim := P.length) (b := a) (c := n - a - geti (g1.shape r1) P.length) (by omega) hndim1
    (by rw [hP, hge1]; omega)
  have e2' : (if a > 0 ∨ n - a - geti (g1.shape r1) P.length > 0 then ND.pad g1 r1 P.length a (n - a - geti (g1.shape r1) P.length) else pure (r1, g1)) = .ok (r2, g2) := by
    by_cases hp : a > 0 ∨ n - a - geti (g1.shape r1) P.length > 0
    · rw [if_pos hp]; exact e2
    · rw [if_neg hp, ← e2]
      unfold ND.pad
      rw [if_neg (by omega), if_pos (by rw [hge1] at hp ⊢; omega)]
  have hs2 : (g1.shape r1).set ((P.length : Int)).toNat (geti (g1.shape r1) ((P.length : Int)).toNat + (a + (n - a - geti (g1.shape r1) P.length))) = P ++ n :: T := by
    rw [hP, m1.shape, set_append_len, geti_append_len]; congr 2; omega
  rw [hs2] at m2
  refine ⟨r1, g1, r2, g2, e1', e2', m1.trans m2, fun p q i hp h0 h1 hi => ?_⟩
  have hpl := hp.length
  have hPp : ((P.length : Int)).toNat = p.length := by omega
  rw [(d2 A).2 (p ++ q :: i) (by rw [den_shape A m2.wf m2.lt, m2.shape]; exact (validIdx_append hp.length).2 ⟨hp, ⟨h0, h1⟩, hi⟩)]
  simp only [Tensor.pad]
  rw [den_shape A m1.wf m1.lt, hP, hge1, show P.length = p.length by omega, geti_append_len, set_append_len]
  by_cases hin : a ≤ q ∧ q < a + ((Tensor.sliceLen a b c - 1) * c + 1)
  · rw [if_pos hin]
    rw [(d1 A).2 (p ++ (q - a) :: i) (by rw [den_shape A m1.wf m1.lt, m1.shape]; exact (validIdx_append hp.length).2 ⟨hp, ⟨by omega, by omega⟩, hi⟩)]
    simp only [Tensor.dilate]
    rw [hPp, geti_append_len, set_append_len]
    have : (q - a) / c < Tensor.sliceLen a b c := dilate_bound (by omega) (by omega)
    by_cases hm : (q - a) % c = 0
    · rw [if_pos hm, if_pos ⟨hin.1, hm, this⟩]
    · rw [if_neg hm, if_neg (by omega)]
  · rw [if_neg hin, if_neg]
    rintro ⟨h2, h3, h4⟩
    apply hin
    refine ⟨h2, ?_⟩
    have e := Int.mul_ediv_add_emod (q - a) c
    rw [h3, Int.mul_comm] at e
    have : (q - a) / c * c ≤ (Tensor.sliceLen a b c - 1) * c := Int.mul_le_mul_of_nonneg_right (by omega) (by omega)
    omega

theorem sliceLoop_ok (A : Scalar V) (shape : List Int) {subs : List Sub} {P S : List Int} {g : Graph V} (h : WF g) (hnn : NN g) {gr : Nat} (hg : gr < g.length)
    (hshape : shape = P ++ S) (hok : SubsOK S subs) (hgn : ∀ a b c, Sub.slice a b c ∈ subs → c = 1 ∨ a < b) (hsh : g.shape gr = P ++ Tensor.sliceShape subs) :
    ∃ r g', sliceLoop shape subs P.length g gr = .ok (r, g') ∧ MadeS g g' r shape ∧
      ∀ p q, ValidIdx P p → ValidIdx S q → (den A g' r).get (p ++ q) = scatter A (den A g gr) p (unslice subs q) := by
  induction subs generalizing P S g gr with
  | nil => cases S with
    | nil =>
      refine ⟨gr, g, rfl, ?_, fun p q _ hq => ?_⟩
      · have := madeS_refl h hg hnn
        rw [hsh] at this
        rw [hshape]; exact this
      · have : q = [] := by simpa using hq
        subst this; rfl
    | cons d S => simp [SubsOK] at hok
  | cons b r ih => cases S with
    | nil => cases b <;> simp [SubsOK] at hok
    | cons n S =>
      have hgeti : geti shape P.length = n := by rw [hshape, geti_append_len]
      have happ : ∀ T : List Int, P ++ n :: T = (P ++ [n]) ++ T := fun T => by simp
      have hl : (P ++ [n]).length = P.length + 1 := by simp
      cases b with
      | int s =>
        obtain ⟨r1, g1, r2, g2, e1, e2, m, d⟩ := sliceInt_ok A h hnn hg (n := n) hok.1.1 hok.1.2 hsh
        obtain ⟨r3, g3, e3, m3, d3⟩ := ih (P := P ++ [n]) (S := S) m.wf m.nn m.lt (by rw [hshape, happ]) hok.2
          (fun a b c hm => hgn a b c (List.mem_cons_of_mem _ hm)) (by rw [m.shape, happ]; rfl)
        refine ⟨r3, g3, ?_, m.trans m3, fun p q hp hq => ?_⟩
        · simp only [sliceLoop, e1, bind, Except.bind, hgeti, e2]
          rw [← hl]; exact e3
        · cases q with
          | nil => simp at hq
          | cons q0 q =>
            have := d3 (p ++ [q0]) q ((validIdx_append hp.length).2 ⟨hp, ⟨hq.1, trivial⟩⟩) hq.2
            rw [show p ++ q0 :: q = (p ++ [q0]) ++ q by simp, this]
            simp only [unslice]
            cases hu : unslice r q with
            | none => split <;> rfl
            | some i =>
              have hi := ((unslice_iff hok.2 hq.2.length).1 hu).1
              have := d p q0 i hp hq.1.1 hq.1.2 hi
              simp only [scatter]
              rw [show (p ++ [q0]) ++ i = p ++ q0 :: i by simp, this]
              split <;> rfl
      | slice a b c =>
        obtain ⟨r1, g1, r2, g2, e1, e2, m, d⟩ := sliceSlice_ok A h hnn hg (n := n) hok.1.1 hok.1.2.1 hok.1.2.2 (hgn a b c (by simp)) hsh
        obtain ⟨r3, g3, e3, m3, d3⟩ := ih (P := P ++ [n]) (S := S) m.wf m.nn m.lt (by rw [hshape, happ]) hok.2
          (fun a b c hm => hgn a b c (List.mem_cons_of_mem _ hm)) (by rw [m.shape, happ])
        refine ⟨r3, g3, ?_, m.trans m3, fun p q hp hq => ?_⟩
        · simp only [sliceLoop, bind, Except.bind, hgeti]
          rw [← hl]
          by_cases hc1 : c > 1 <;> simp only [hc1, if_true, if_false] at e1 ⊢
          · rw [e1]; simp only
            by_cases hp : a > 0 ∨ n - a - geti (g1.shape r1) P.length > 0 <;> simp only [hp, if_true, if_false] at e2 ⊢
            · rw [e2]; exact e3
            · cases e2; exact e3
          · cases e1; simp only [pure, Except.pure]
            by_cases hp : a > 0 ∨ n - a - geti (g.shape gr) P.length > 0 <;> simp only [hp, if_true, if_false] at e2 ⊢
            · rw [e2]; exact e3
            · cases e2; exact e3
        · cases q with
          | nil => simp at hq
          | cons q0 q =>
            have := d3 (p ++ [q0]) q ((validIdx_append hp.length).2 ⟨hp, ⟨hq.1, trivial⟩⟩) hq.2
            rw [show p ++ q0 :: q = (p ++ [q0]) ++ q by simp, this]
            simp only [unslice]
            cases hu : unslice r q with
            | none => split <;> rfl
            | some i =>
              have hi := ((unslice_iff hok.2 hq.2.length).1 hu).1
              have := d p q0 i hp hq.1.1 hq.1.2 hi
              simp only [scatter]
              rw [show (p ++ [q0]) ++ i = p ++ q0 :: i by simp, this]
              split <;> rfl

theorem sliceRule_ok (A : Scalar V) {g : Graph V} (h : WF g) (hnn : NN g) {x gr : Nat} {subs : List Sub} (hg : gr < g.length)
    (hok : SubsOK (g.shape x) subs) (hgn : ∀ a b c, Sub.slice a b c ∈ subs → c = 1 ∨ a < b) (hsg : g.shape gr = Tensor.sliceShape subs) :
    ∃ ys g', sliceRule g x subs gr = .ok (ys, g') ∧ RuleRes A g g' [x] ys [sliceVjp A (g.shape x) subs (den A g gr)] := by
  obtain ⟨r, g', e, m, d⟩ := sliceLoop_ok A (g.shape x) (P := []) h hnn hg rfl hok hgn hsg
  refine ⟨[r], g', ?_, .one m rfl ⟨?_, fun j hj => ?_⟩⟩
  · simp only [sliceRule, bind, Except.bind]
    simp only [List.length_nil] at e
    rw [e]; rfl
  · rw [den_shape A m.wf m.lt, m.shape]; rfl
  · rw [den_shape A m.wf m.lt, m.shape] at hj
    exact d [] j trivial hj

end Whale
