import Verif.Proofs.Strided
import Verif.Proofs.Demo
import Verif.Props.Reshape
/-
C54: `tolist` reads through offset and strides; what a reshape of a view with an offset shows (C09).
-/
namespace Whale.Props
open Whale Mat Hist
variable {V : Type}

/-- C54.  For every array `a` of every session, also one on which `Is` says nothing (a view chain through a reshape of a view with an offset): whenever `a.tolist()` returns, it
returns the elements of `a.base()` read through `a.offset` and `a.strides`; after `a.materialize()` it does return; and no position read lies outside the base. -/
theorem C54_strided {b : Backend V} (hb : Faithful b) {w : World V} (hw : Reachable b w) {a : Nat} (ha : a < w.g.length) :
    Shows b w a (strided b w a) ∧ Computes b w a (strided b w a) ∧
      ∀ i, ValidIdx (w.g.shape a) i → 0 ≤ position w a i ∧ position w a i < (value b w (base w.g a)).flatten.length :=
  have h := hw.inv hb
  ⟨shows_strided hb h ha, computes_strided hb h ha, fun _ hv => position_bounds h.winv ha hv⟩

/-- A column of a matrix: offset 1, stride 3. -/
example : Demo.runs [.array Demo.m23, .getitem 0 [.slice none none none, .int 1]] = true ∧
    (strided Demo.py (Demo.after [.array Demo.m23, .getitem 0 [.slice none none none, .int 1]]) 1).flatten = [2, 5] ∧
    position (Demo.after [.array Demo.m23, .getitem 0 [.slice none none none, .int 1]]) 1 [1] = 4 := by decide +kernel

/-- C54.  Without a reshape of a view with an offset on the way, reading through offset and strides gives the value of the array. -/
theorem C54_value {b : Backend V} (hb : Faithful b) {w : World V} (hw : Reachable b w) {a : Nat} (ha : a < w.g.length) (hno : NoOffsetReshape w.g a) :
    (strided b w a).Equiv (value b w a) := by
  have h := (hw.inv hb).winv
  refine ⟨(den_shape b.A h.wf ha).symm, fun i hv => ?_⟩
  obtain ⟨j, hj, he, hd⟩ := layout b.A h.wf ha hv
  have hbl : base w.g a < w.g.length := Nat.lt_of_le_of_lt (base_le h.wf ha) ha
  have hf := flatten_getElem? (t := den b.A w.g (base w.g a)) (idx := j) (by rw [den_shape b.A h.wf hbl]; exact hj)
  unfold addr at he
  show (value b w (base w.g a)).flatten.getD (position w a i).toNat _ = _
  unfold position value
  rw [he, hd hno, List.getD_eq_getElem?_getD, ← den_shape b.A h.wf hbl, hf]; rfl

example : NoOffsetReshape (Demo.after [.array Demo.m23, .T 0, .reshape 1 [6]]).g 3 :=
  .reshape (x := 2) (s := [6]) (by decide +kernel) (by decide +kernel) (.base (by decide +kernel))

theorem rowmajor_flatten {F : List V} {d : V} {s : List Int} (hs : NonNeg s) (hl : (prod s).toNat ≤ F.length) (T : Tensor V) (hT : T.shape = s)
    (hg : ∀ i, ValidIdx s i → T.get i = F.getD (ravel s i).toNat d) : T.flatten = F.take (prod s).toNat := by
  apply List.ext_getElem?
  intro k
  by_cases hk : k < (prod s).toNat
  · obtain ⟨v1, e1⟩ := valid_unravel hs (k := k) (by omega) (by omega)
    have h1 := flatten_getElem? (t := T) (idx := unravel s k) (by rw [hT]; exact v1)
    rw [hT, e1, Int.toNat_natCast] at h1
    rw [h1, List.getElem?_take_of_lt hk, hg _ v1, e1, Int.toNat_natCast, List.getD_eq_getElem?_getD, List.getElem?_eq_getElem (by omega)]; rfl
  · rw [List.getElem?_eq_none, List.getElem?_eq_none]
    · rw [List.length_take]; omega
    · rw [length_flatten (by rw [hT]; exact hs), hT]; omega

/-- C09, exactly: what reading `a.reshape(*s)` gives, for every array `a` whose own reading is right.  If `a`'s strides are row-major (no copy is made) it is the first elements
of `a.base()`, as if `a` had offset 0; otherwise it is the elements of `a`. -/
theorem C09_exact {b : Backend V} (hb : Faithful b) {w : World V} (hw : Reachable b w) {a : Nat} (ha : a < w.g.length) {s : List Int} (hs : NonNeg s)
    (hp : prod s = prod (w.g.shape a)) :
    ∃ r w', step b w (.reshape a s) = .ok (.arr r, w') ∧ Shows b w' r (strided b w' r) ∧ Computes b w' r (strided b w' r) ∧ (strided b w' r).shape = s ∧
      (strided b w' r).flatten = if w.g.strides a = (List.range (w.g.shape a).length).map (fun d => prod ((w.g.shape a).drop (d + 1)))
        then (value b w (base w.g a)).flatten.take (prod s).toNat else (value b w a).flatten := by
  have h := hw.inv hb
  have hwf := h.winv.wf
  obtain ⟨r, g', e1, m, d⟩ := reshape_s hwf h.nn ha hp hs
  have hst : step b w (.reshape a s) = .ok (.arr r, { w with g := g' }) := step_made (by simpa [Call.arrays] using ha) (by simp only [exec1, e1])
  have hr' : Reachable b { w with g := g' } := hw.call (c := .reshape a s) (.inr hs) (by unfold next; rw [hst])
  have hinv := hr'.inv hb
  refine ⟨r, _, hst, shows_strided hb hinv m.lt, computes_strided hb hinv m.lt, m.shape, ?_⟩
  have hpn : prod s ≥ 0 := hs.prod_nonneg
  by_cases hc : w.g.strides a = stridesFromShape (w.g.shape a)
  · rw [if_pos (show w.g.strides a = (List.range (w.g.shape a).length).map _ from hc)]
    have e2 : ND.reshape w.g a s = .ok (w.g.push (ND.reshapeNode w.g a s)) := by
      simp [ND.reshape, hp, ND.contiguous, ND.isContiguous, hc, bind, Except.bind, pure, Except.pure]
    rw [e1] at e2
    have hr : r = w.g.length := congrArg Prod.fst (Except.ok.inj e2)
    have hg' : g' = w.g ++ [ND.reshapeNode w.g a s] := congrArg Prod.snd (Except.ok.inj e2)
    subst hr
    have hctx : g'.ctx w.g.length = .reshape a s := by rw [hg']; simp [Graph.ctx, nd_push, ND.reshapeNode]
    have hbase : base g' w.g.length = base w.g a := by
      rw [base_view m.wf (x := a) (l := []) m.lt (by rw [hctx]; rfl) (by rw [hctx]; rfl), base_ext m.ext hwf ha]
    have hbl : base w.g a < w.g.length := Nat.lt_of_le_of_lt (base_le hwf ha) ha
    have hv : value b { w with g := g' } (base g' w.g.length) = value b w (base w.g a) := by
      rw [hbase]; exact den_ext b.A m.ext m.wf hbl
    have hpos : ∀ i, ValidIdx s i → position { w with g := g' } w.g.length i = ravel s i := by
      intro i hi
      unfold position
      show g'.offset w.g.length + dot i (g'.strides w.g.length) = _
      rw [hg']
      simp only [Graph.offset, Graph.strides, nd_push, ND.reshapeNode]
      rw [dot_strides hi.length]; omega
    refine rowmajor_flatten (d := b.A.ofInt 0) hs ?_ _ m.shape fun i hi => ?_
    · by_cases hz : (prod s).toNat = 0
      · omega
      · obtain ⟨v1, e1⟩ := valid_unravel hs (k := prod s - 1) (by omega) (by omega)
        have := position_bounds (b := b) (w := { w with g := g' }) hinv.winv m.lt (i := unravel s (prod s - 1)) (by rw [m.shape]; exact v1)
        rw [hv, hpos _ v1, e1] at this
        omega
    · show (value b { w with g := g' } (base g' w.g.length)).flatten.getD (position _ _ i).toNat _ = _
      rw [hv, hpos i hi]
  · rw [if_neg (show ¬ w.g.strides a = (List.range (w.g.shape a).length).map _ from hc)]
    have e2 : ND.reshape w.g a s = .ok ((w.g ++ [ND.elemwiseNode w.g (.contiguous a) a]).push (ND.reshapeNode (w.g ++ [ND.elemwiseNode w.g (.contiguous a) a]) w.g.length s)) := by
      simp [ND.reshape, hp, ND.contiguous, ND.isContiguous, hc, bind, Except.bind, pure, Except.pure, Graph.push]
    rw [e1] at e2
    have hr := congrArg Prod.fst (Except.ok.inj e2)
    have hg' := congrArg Prod.snd (Except.ok.inj e2)
    simp only [Graph.push] at hr hg'
    have hx : (w.g ++ [ND.elemwiseNode w.g (.contiguous a) a]).length = w.g.length + 1 := by simp
    have hctx : g'.ctx r = .reshape w.g.length s := by rw [hg', hr]; simp only [Graph.ctx, nd_push]; rfl
    have hnd : g'.nd w.g.length = ND.elemwiseNode w.g (.contiguous a) a := by
      rw [hg', (Ext.push _ _).nd (by omega), nd_push]
    have hno : NoOffsetReshape g' r := .reshape hctx (by simp [Graph.offset, hnd, ND.elemwiseNode]) (.base (by simp only [Graph.ctx, hnd, ND.elemwiseNode]; rfl))
    rw [(C54_value hb hr' m.lt hno).flatten]
    show (den b.A g' r).flatten = _
    rw [d]
    have e : (value b w a).shape = w.g.shape a := den_shape b.A hwf ha
    exact reshape_flatten hs (by rw [← value, e]; exact (h.nn a ha).1) (by rw [← value, e]; exact hp)

example : Demo.listOf [.arange 6, .getitem 0 [.slice (some 2) none none], .reshape 1 [2, 2]] (.tolist 2) = some ([2, 2], [0, 1, 2, 3]) ∧
    Demo.listOf [.array Demo.m23, .T 0, .reshape 1 [6], .materialize 3] (.tolist 3) = some ([6], [1, 4, 2, 5, 3, 6]) := by decide +kernel

/-- C09, exactly: reading `a.reshape(*s)` gives the elements of `a` if and only if a copy was made or the elements of `a` are the first elements of `a.base()`. -/
theorem C09_iff {b : Backend V} (hb : Faithful b) {w : World V} (hw : Reachable b w) {a : Nat} (ha : a < w.g.length) {s : List Int} (hs : NonNeg s)
    (hp : prod s = prod (w.g.shape a)) :
    ∃ r w', step b w (.reshape a s) = .ok (.arr r, w') ∧ ((strided b w' r).flatten = (value b w a).flatten ↔
      w.g.strides a ≠ (List.range (w.g.shape a).length).map (fun d => prod ((w.g.shape a).drop (d + 1))) ∨
      (value b w a).flatten = (value b w (base w.g a)).flatten.take (prod s).toNat) := by
  obtain ⟨r, w', e, _, _, _, hf⟩ := C09_exact hb hw ha hs hp
  refine ⟨r, w', e, ?_⟩
  rw [hf]
  split
  · rename_i hc
    exact ⟨fun x => .inr x.symm, fun x => (x.resolve_left (fun n => n hc)).symm⟩
  · rename_i hc
    exact ⟨fun _ => .inl hc, fun _ => rfl⟩

/-- Both sides occur: a view with an offset that is read wrongly, one that is read rightly because the memory happens to repeat. -/
example : Demo.listOf [.array Demo.m23, .getitem 0 [.slice (some 1) none none], .reshape 1 [3]] (.tolist 2) = some ([3], [1, 2, 3]) ∧
    Demo.listOf [.full [2, 3] 1, .getitem 0 [.slice (some 1) none none], .reshape 1 [3]] (.tolist 2) = some ([3], [1, 1, 1]) := by decide +kernel

end Whale.Props
