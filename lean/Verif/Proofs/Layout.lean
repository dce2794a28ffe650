import Verif.Spec.Reach
import Verif.Proofs.IdxMaps
/-
Strided layout of views: every valid index of a view addresses a cell of the base array, and – as long as no
reshape was taken of a view that starts at a non-zero offset – the cell that holds the right element.
-/
namespace Whale
variable {V : Type}

/-- Buffer position read by `tolist` for index `idx` of array `i` (ndarray.py:363-368). -/
def addr (g : Graph V) (i : Nat) (idx : List Int) : Int := g.offset i + dot idx (g.strides i)

theorem unary_not_view {op : Ops} (h : op.isUnary = true) : op.isView = false := by cases op <;> revert h <;> decide
theorem binary_not_view {op : Ops} (h : op.isBinary = true) : op.isView = false := by cases op <;> revert h <;> decide

theorem baseF_fuel {g : Graph V} (h : WF g) {i : Nat} (hi : i < g.length) {f1 f2 : Nat}
    (h1 : i < f1) (h2 : i < f2) : baseF g f1 i = baseF g f2 i := by
  induction i using Nat.strongRecOn generalizing f1 f2 with
  | ind i ih =>
    obtain ⟨f1, rfl⟩ : ∃ k, f1 = k + 1 := ⟨f1 - 1, by omega⟩
    obtain ⟨f2, rfl⟩ : ∃ k, f2 = k + 1 := ⟨f2 - 1, by omega⟩
    have hlt := h.inputs_lt hi
    simp only [baseF]
    split
    · cases hc : (g.ctx i).inputs with
      | nil => rfl
      | cons x l =>
        have hx := hlt x (by simp [hc])
        exact ih x hx (by omega) (by omega) (by omega)
    · rfl

theorem base_view {g : Graph V} (h : WF g) {i x : Nat} {l : List Nat} (hi : i < g.length) (hv : (g.ctx i).op.isView = true)
    (hx : (g.ctx i).inputs = x :: l) : base g i = base g x := by
  have hlt := h.inputs_lt hi x (by simp [hx])
  unfold base
  rw [show baseF g (i + 1) i = baseF g i x by simp [baseF, hv, hx]]
  exact baseF_fuel h (by omega) hlt (by omega)

theorem base_nonview {g : Graph V} {i : Nat} (hv : (g.ctx i).op.isView = false) : base g i = i := by
  simp [base, baseF, hv]

theorem base_le {g : Graph V} (h : WF g) {i : Nat} (hi : i < g.length) : base g i ≤ i := by
  induction i using Nat.strongRecOn with
  | ind i ih =>
    cases hv : (g.ctx i).op.isView with
    | false => rw [base_nonview hv]; exact Nat.le_refl _
    | true =>
      cases hc : (g.ctx i).inputs with
      | nil => cases hcc : g.ctx i <;> simp_all [Ctx.inputs, Ctx.op] ; exact absurd hv (by decide)
      | cons x l =>
        have hx := h.inputs_lt hi x (by simp [hc])
        rw [base_view h hi hv hc]
        have := ih x hx (by omega)
        omega

theorem dot_nil (ys : List Int) : dot [] ys = 0 := rfl
theorem dot_nil_right (xs : List Int) : dot xs [] = 0 := by cases xs <;> rfl

/-! broadcast -/
theorem dot_bcast_aux {s st idx : List Int} (hl : st.length = s.length) (hi : idx.length = s.length) :
    dot idx (List.zipWith (fun s st => if s = (1 : Int) then (0 : Int) else st) s st) = dot (bcastIdx s idx) st := by
  induction s generalizing st idx with
  | nil => cases st <;> simp_all [bcastIdx, dot]
  | cons a s ih => cases st with
    | nil => simp at hl
    | cons b st => cases idx with
      | nil => simp at hi
      | cons i is =>
        simp only [bcastIdx, List.zipWith_cons_cons, dot]
        rw [ih (by simpa using hl) (by simpa using hi)]
        by_cases h : a = 1 <;> simp [h, bcastIdx]

theorem dot_bcast_pad {n : Nat} {s st idx : List Int} (hl : st.length = s.length) (hi : idx.length = n + s.length) :
    dot idx (List.zipWith (fun s st => if s = (1 : Int) then (0 : Int) else st) (List.replicate n 1 ++ s) (List.replicate n 0 ++ st))
      = dot (bcastIdx s (idx.drop n)) st := by
  induction n generalizing idx with
  | zero => simpa using dot_bcast_aux hl (by simpa using hi)
  | succ n ih => cases idx with
    | nil => simp at hi; omega
    | cons i is =>
      simp only [List.replicate_succ, List.cons_append, List.zipWith_cons_cons, dot, if_true, List.drop_succ_cons]
      rw [ih (by simp at hi; omega)]
      omega

/-! slice -/
theorem dot_slice {strides idx : List Int} {subs : List Sub} (hl : strides.length = subs.length)
    (hi : idx.length = (Tensor.sliceShape subs).length) :
    (ND.sliceLayout strides subs).1 + dot idx (ND.sliceLayout strides subs).2.2 = dot (Tensor.sliceIdx subs idx) strides := by
  induction subs generalizing strides idx with
  | nil => cases strides <;> cases idx <;> simp_all [ND.sliceLayout, Tensor.sliceIdx, dot, Tensor.sliceShape]
  | cons b r ih => cases strides with
    | nil => simp at hl
    | cons st strides => cases b with
      | int s =>
        simp only [ND.sliceLayout, Tensor.sliceIdx, dot]
        have := ih (strides := strides) (idx := idx) (by simpa using hl) hi
        rw [← this]; exact Int.add_assoc ..
      | slice a b c => cases idx with
        | nil => simp [Tensor.sliceShape] at hi
        | cons k idx =>
          simp only [ND.sliceLayout, Tensor.sliceIdx, dot]
          have := ih (strides := strides) (idx := idx) (by simpa using hl) (by simpa [Tensor.sliceShape] using hi)
          rw [← this]
          rw [Int.add_mul, show k * (st * c) = k * c * st by rw [Int.mul_comm st c, Int.mul_assoc]]
          generalize (ND.sliceLayout strides r) = q
          obtain ⟨q1, q2, q3⟩ := q
          simp only
          omega

/-! transpose -/
theorem dot_eq_sum {xs ys : List Int} {n : Nat} (hx : xs.length = n) (hy : ys.length = n) :
    dot xs ys = ((List.range n).map fun k => geti xs k * geti ys k).sum := by
  induction n generalizing xs ys with
  | zero => simp at hx hy; subst hx; subst hy; rfl
  | succ n ih => cases xs with
    | nil => simp at hx
    | cons x xs => cases ys with
      | nil => simp at hy
      | cons y ys =>
        rw [List.range_succ_eq_map]
        simp only [dot, List.map_cons, List.sum_cons, List.map_map, geti_cons_zero]
        rw [ih (by simpa using hx) (by simpa using hy)]
        congr 1

theorem perm_sum {l m : List Int} (h : l.Perm m) : l.sum = m.sum := by
  induction h with
  | nil => rfl
  | cons x _ ih => simp [ih]
  | swap x y l => simp only [List.sum_cons]; omega
  | trans _ _ h1 h2 => exact h1.trans h2

theorem dot_perm {axes : List Nat} {st idx : List Int} (h : axes.Perm (List.range st.length)) (hi : idx.length = axes.length) :
    dot idx (axes.map (geti st)) = dot (permIdx axes idx) st := by
  have hl := perm_range_length h
  rw [dot_eq_sum (n := axes.length) hi (by simp), dot_eq_sum (n := axes.length) (by simp [permIdx]) (by omega)]
  have h1 : (List.range axes.length).map (fun k => geti idx k * geti (axes.map (geti st)) k)
      = axes.map (fun a => geti idx (axes.idxOf a) * geti st a) := by
    apply List.ext_getElem (by simp)
    intro k hk1 hk2
    simp only [List.length_map, List.length_range] at hk1
    simp only [List.getElem_map, List.getElem_range]
    have hnd := perm_range_nodup h
    rw [hnd.idxOf_getElem, geti_eq_getElem (l := axes.map (geti st)) (by simpa using hk1)]
    simp
  have h2 : (List.range axes.length).map (fun k => geti (permIdx axes idx) k * geti st k)
      = (List.range axes.length).map (fun a => geti idx (axes.idxOf a) * geti st a) := by
    apply List.map_congr_left
    intro k hk
    simp only [List.mem_range] at hk
    unfold permIdx
    rw [geti_map_range _ _ _ hk]
  rw [h1, h2]
  have hp : (axes.map (fun a => geti idx (axes.idxOf a) * geti st a)).Perm
      ((List.range axes.length).map (fun a => geti idx (axes.idxOf a) * geti st a)) := by
    rw [hl]; exact h.map _
  exact perm_sum hp

/-- Arrays that are not views own a freshly laid out buffer. -/
theorem nonview_layout {g : Graph V} (h : WF g) {i : Nat} (hi : i < g.length) (hv : (g.ctx i).op.isView = false) :
    g.strides i = stridesFromShape (g.shape i) ∧ g.offset i = 0 := by
  have hn := h i hi
  unfold NodeOK at hn
  have hcd : (g.nd i).ctx = g.ctx i := rfl
  have hsd : g.shape i = (g.nd i).shape := rfl
  have htd : g.strides i = (g.nd i).strides := rfl
  have hod : g.offset i = (g.nd i).offset := rfl
  rw [hcd] at hn
  rw [hsd, htd, hod]
  cases hc : g.ctx i <;> simp only [hc, Ctx.op] at hn hv
  case const => obtain ⟨l, _, _, _, h4, h5⟩ := hn; exact ⟨h4, h5.1⟩
  case unary op x => rw [hn.2.2]; exact ⟨rfl, rfl⟩
  case binary op l r => rw [hn.2.2.2.2]; exact ⟨rfl, rfl⟩
  case sum x axis kd => rw [hn.2.2]; exact ⟨rfl, rfl⟩
  case contiguous x => rw [hn.2]; exact ⟨rfl, rfl⟩
  case pad x dim b a => rw [hn.2.2]; exact ⟨rfl, rfl⟩
  case dilate x dim st => rw [hn.2.2.2]; exact ⟨rfl, rfl⟩
  all_goals exact absurd hv (by decide)

/-- Layout invariant. -/
theorem layout (A : Scalar V) {g : Graph V} (h : WF g) {i : Nat} (hi : i < g.length) {idx : List Int} (hv : ValidIdx (g.shape i) idx) :
    ∃ j, ValidIdx (g.shape (base g i)) j ∧ addr g i idx = ravel (g.shape (base g i)) j ∧
      (NoOffsetReshape g i → (den A g i).get idx = (den A g (base g i)).get j) := by
  induction i using Nat.strongRecOn generalizing idx with
  | ind i ih =>
    cases hview : (g.ctx i).op.isView with
    | false =>
      have ⟨h1, h2⟩ := nonview_layout h hi hview
      rw [base_nonview hview]
      refine ⟨idx, hv, ?_, fun _ => rfl⟩
      unfold addr
      rw [h1, h2, dot_strides hv.length]; omega
    | true =>
      have hn := h i hi
      have hlt := h.inputs_lt hi
      have hden := den_eq A h hi
      unfold denStep denCtx at hden
      unfold NodeOK at hn
      have hcd : (g.nd i).ctx = g.ctx i := rfl
      have hsd : g.shape i = (g.nd i).shape := rfl
      have htd : g.strides i = (g.nd i).strides := rfl
      have hod : g.offset i = (g.nd i).offset := rfl
      rw [hcd] at hn hden
      rw [hsd] at hv
      unfold addr
      rw [htd, hod]
      cases hc : g.ctx i <;> simp only [hc, Ctx.op, Ctx.inputs, List.mem_cons, List.not_mem_nil, or_false, forall_eq] at hn hlt hden hview ⊢
      case reshape x s =>
        have hb : base g i = base g x := base_view h hi (by simp [hc, Ctx.op]; decide) (by simp [hc, Ctx.inputs]; rfl)
        obtain ⟨_, hp, hs, hsx, hst, he⟩ := hn
        rw [he] at hv ⊢
        simp only [ND.reshapeNode] at hv ⊢
        have hk := ravel_bounds hv
        have ⟨v, r⟩ := valid_unravel hsx hk.1 (by omega)
        obtain ⟨j, hj, ha, hd⟩ := ih x hlt (by omega) v
        unfold addr at ha
        rw [hst, dot_strides v.length, r] at ha
        have hjb := ravel_bounds hj
        rw [hb, dot_strides hv.length]
        by_cases ho : g.offset x = 0
        · refine ⟨j, hj, by omega, fun hno => ?_⟩
          rw [hden, ← hd ?_]
          · simp only [Tensor.reshape, den_shape A h (show x < g.length by omega)]
          · cases hno with
            | base hb => rw [hc] at hb; exact absurd hb (by simp [Ctx.op]; decide)
            | reshape e _ hx => rw [hc] at e; cases e; exact hx
            | broadcast e => rw [hc] at e; cases e
            | slice e => rw [hc] at e; cases e
            | transpose e => rw [hc] at e; cases e
        · -- the offset of a non-empty view is not negative
          have hz : ValidIdx (g.shape x) (unravel (g.shape x) 0) ∧ ravel (g.shape x) (unravel (g.shape x) 0) = 0 :=
            valid_unravel hsx (by omega) (by omega)
          obtain ⟨j0, hj0, ha0, _⟩ := ih x hlt (by omega) hz.1
          unfold addr at ha0
          rw [hst, dot_strides hz.1.length, hz.2] at ha0
          have hj0b := ravel_bounds hj0
          have ⟨v2, r2⟩ := valid_unravel (s := g.shape (base g x)) (k := ravel s idx) hj.nonNeg hk.1 (by omega)
          refine ⟨_, v2, by omega, fun hno => ?_⟩
          exfalso
          cases hno with
          | base hb => rw [hc] at hb; exact absurd hb (by simp [Ctx.op]; decide)
          | reshape e e0 hx => rw [hc] at e; cases e; exact ho e0
          | broadcast e => rw [hc] at e; cases e
          | slice e => rw [hc] at e; cases e
          | transpose e => rw [hc] at e; cases e
      case broadcast x s =>
        have hb : base g i = base g x := base_view h hi (by simp [hc, Ctx.op]; decide) (by simp [hc, Ctx.inputs]; rfl)
        obtain ⟨_, hB, he⟩ := hn
        rw [he] at hv ⊢
        simp only [ND.broadcastNode] at hv ⊢
        have v := valid_bcastIdx hB hv
        obtain ⟨j, hj, ha, hd⟩ := ih x hlt (by omega) v
        rw [hb]
        refine ⟨j, hj, ?_, fun hno => ?_⟩
        · unfold addr at ha
          rw [dot_bcast_pad (h.strides_length (by omega)) (by have := hv.length; have := hB.1; omega)]
          exact ha
        · rw [hden, ← hd ?_]
          · simp only [Tensor.broadcastTo, den_shape A h (show x < g.length by omega), bcastIdx]
          · cases hno with
            | base hb => rw [hc] at hb; exact absurd hb (by simp [Ctx.op]; decide)
            | reshape e => rw [hc] at e; cases e
            | broadcast e hx => rw [hc] at e; cases e; exact hx
            | slice e => rw [hc] at e; cases e
            | transpose e => rw [hc] at e; cases e
      case slice x subs =>
        have hb : base g i = base g x := base_view h hi (by simp [hc, Ctx.op]; decide) (by simp [hc, Ctx.inputs]; rfl)
        obtain ⟨_, hB, he⟩ := hn
        have hls : (g.strides x).length = subs.length := by rw [h.strides_length (by omega), hB.length]
        rw [he] at hv ⊢
        simp only [ND.sliceNode, sliceLayout_shape hls] at hv ⊢
        have v := valid_sliceIdx hB hv
        obtain ⟨j, hj, ha, hd⟩ := ih x hlt (by omega) v
        rw [hb]
        refine ⟨j, hj, ?_, fun hno => ?_⟩
        · unfold addr at ha
          rw [← ha, ← dot_slice hls hv.length, Int.add_assoc]
        · rw [hden, ← hd ?_]
          · simp only [Tensor.slice]
          · cases hno with
            | base hb => rw [hc] at hb; exact absurd hb (by simp [Ctx.op]; decide)
            | reshape e => rw [hc] at e; cases e
            | broadcast e hx => rw [hc] at e; cases e
            | slice e hx => rw [hc] at e; cases e; exact hx
            | transpose e => rw [hc] at e; cases e
      case transpose x axes =>
        have hb : base g i = base g x := base_view h hi (by simp [hc, Ctx.op]; decide) (by simp [hc, Ctx.inputs]; rfl)
        obtain ⟨_, hB, he⟩ := hn
        rw [he] at hv ⊢
        simp only [ND.transposeNode] at hv ⊢
        have v := valid_permIdx hB hv
        obtain ⟨j, hj, ha, hd⟩ := ih x hlt (by omega) v
        rw [hb]
        refine ⟨j, hj, ?_, fun hno => ?_⟩
        · unfold addr at ha
          have hl := hv.length
          rw [← ha, ← dot_perm (by rw [h.strides_length (by omega)]; exact hB) (by simpa using hl)]
        · rw [hden, ← hd ?_]
          · simp only [Tensor.transpose, permIdx]
          · cases hno with
            | base hb => rw [hc] at hb; exact absurd hb (by simp [Ctx.op]; decide)
            | reshape e => rw [hc] at e; cases e
            | broadcast e hx => rw [hc] at e; cases e
            | slice e hx => rw [hc] at e; cases e
            | transpose e hx => rw [hc] at e; cases e; exact hx
      all_goals first
        | exact absurd hview (by decide)
        | (rw [unary_not_view hn.2.1] at hview; exact absurd hview (by decide))
        | (rw [binary_not_view hn.2.2.1] at hview; exact absurd hview (by decide))

end Whale
