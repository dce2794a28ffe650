import Verif.Proofs.Demo
/-
C06, C07: transpose.
-/
namespace Whale.Props
open Whale Mat Hist
variable {V : Type}

theorem _root_.Whale.IsPerm.nat {axes : List Int} {n : Nat} (h : IsPerm axes n) : (axes.map Int.toNat).Perm (List.range n) := by
  have := h.map Int.toNat
  rw [List.map_map] at this
  simpa [Function.comp_def] using this

theorem _root_.Whale.IsPerm.length {axes : List Int} {n : Nat} (h : IsPerm axes n) : axes.length = n := by simpa using h.length_eq

theorem _root_.Whale.IsPerm.get {axes : List Int} {n : Nat} (h : IsPerm axes n) {d : Nat} (hd : d < n) : 0 ≤ geti axes d ∧ geti axes d < n := by
  rw [geti_eq_getElem (by rw [h.length]; exact hd)]
  have := h.mem_iff.1 (List.getElem_mem (l := axes) (by rw [h.length]; exact hd))
  simp only [List.mem_map, List.mem_range] at this
  obtain ⟨k, hk, e⟩ := this
  rw [← e]; simp only [Int.ofNat_eq_natCast]; omega

theorem transpose_ok {g : Graph V} {a : Nat} {axes : List Int} (h : IsPerm axes (g.ndim a)) :
    ND.transpose g a axes = .ok (g.length, g ++ [ND.transposeNode g a (axes.map Int.toNat)]) := by
  simp only [ND.transpose, bind, Except.bind, pure, Except.pure, Graph.push, pySort_range h]; simp

/-- C06.  `a.transpose(*axes)` raises exactly when `axes` is not a permutation of `range(ndim)`. -/
theorem C06_raises {b : Backend V} {w : World V} {a : Nat} (ha : a < w.g.length) (axes : List Int) :
    (∃ e, step b w (.transpose a axes) = .error e) ↔ ¬ IsPerm axes (w.g.ndim a) := by
  rw [step_eq (by simpa [Call.arrays] using ha)]
  simp only [exec1]
  by_cases h : IsPerm axes (w.g.ndim a)
  · rw [transpose_ok h]
    exact ⟨fun ⟨e, he⟩ => (by cases he), fun hn => absurd h hn⟩
  · refine ⟨fun _ => h, fun _ => ⟨.badAxes, ?_⟩⟩
    unfold ND.transpose
    rw [if_pos]
    · rfl
    · intro he
      apply h
      unfold IsPerm
      rw [← he]; exact (List.pySort_perm axes _).symm

/-- C06.  Otherwise it returns an array with `shape[d] = a.shape[axes[d]]` whose element at `i` is the element of `a` whose coordinate along `axes[d]` is
`i[d]`, whether it is read directly or used in a computation. -/
theorem C06_transpose {b : Backend V} (hb : Faithful b) {w : World V} (hw : Reachable b w) {a : Nat} (ha : a < w.g.length) {axes : List Int} {r : Nat}
    {w' : World V} (hs : step b w (.transpose a axes) = .ok (.arr r, w')) :
    ∃ T, Is b w' r T ∧ T.shape.length = (w.g.shape a).length ∧
      (∀ d < (w.g.shape a).length, geti T.shape d = geti (w.g.shape a) (geti axes d).toNat) ∧
      ∀ i, ValidIdx T.shape i → ∀ j, ValidIdx (w.g.shape a) j → (∀ d < (w.g.shape a).length, geti j (geti axes d).toNat = geti i d) →
        T.get i = (value b w a).get j := by
  have h := hw.inv hb
  have hp : IsPerm axes (w.g.ndim a) := by
    by_contra hn
    obtain ⟨e, he⟩ := (C06_raises (b := b) ha axes).2 hn
    rw [hs] at he; cases he
  have hl := hp.length
  rw [step_eq (by simpa [Call.arrays] using ha)] at hs
  obtain ⟨r', g', e', hr, rfl⟩ := madeE_eq hs
  cases hr
  obtain ⟨r2, g2, e2, m, d⟩ := transpose_s h.winv.wf h.nn ha (pySort_range hp)
  rw [e2] at e'; cases e'
  refine ⟨(value b w a).transpose (axes.map Int.toNat), made_is hb h m (.of_eq (d b.A)), ?_, fun k hk => ?_, fun i hi j hj hij => ?_⟩
  · simp [Tensor.transpose, hl, Graph.ndim]
  · have e : (value b w a).shape = w.g.shape a := den_shape b.A h.winv.wf ha
    have hk' : k < axes.length := by rw [hl]; exact hk
    simp only [Tensor.transpose, e]
    rw [geti_eq_getElem (by simpa using hk')]
    simp [geti_eq_getElem hk']
  · simp only [Tensor.transpose]
    congr 1
    apply ext_geti
    · simp [hl, hj.length, Graph.ndim]
    · intro k hk
      have hk' : k < w.g.ndim a := by simpa [hl] using hk
      rw [geti_map_range _ _ _ (by simpa [hl] using hk')]
      have hm := perm_range_mem hp.nat hk'
      have hlt := List.idxOf_lt_length_of_mem hm
      have := hij ((axes.map Int.toNat).idxOf k) (by simpa [hl, Graph.ndim] using hlt)
      rw [← this]
      have hg := getElem_idxOf' hm
      rw [List.getElem_map] at hg
      rw [geti_eq_getElem (l := axes) (by simpa using hlt), hg]

/-- A transpose of a 3-dimensional array by a non-involutive permutation. -/
example : Demo.listOf [.array Demo.m23, .reshape 0 [1, 2, 3], .transpose 1 [1, 2, 0]] (.tolist 2) = some ([2, 3, 1], [1, 2, 3, 4, 5, 6]) ∧
    Demo.listOf [.array Demo.m23, .reshape 0 [1, 2, 3], .transpose 1 [2, 0, 1]] (.tolist 2) = some ([3, 1, 2], [1, 4, 2, 5, 3, 6]) ∧
    Demo.runs [.array Demo.m23, .reshape 0 [1, 2, 3], .transpose 1 [2, 0, 1]] = true := by decide +kernel

/-- C06.  `a.T` never raises; it has the reversed shape and its element at `i` is `a`'s at reversed `i`. -/
theorem C06_T {b : Backend V} (hb : Faithful b) {w : World V} (hw : Reachable b w) {a : Nat} (ha : a < w.g.length) :
    ∃ r w', step b w (.T a) = .ok (.arr r, w') ∧ Is b w' r ⟨(w.g.shape a).reverse, fun i => (value b w a).get i.reverse⟩ := by
  have h := hw.inv hb
  have hsh : (value b w a).shape = w.g.shape a := den_shape b.A h.winv.wf ha
  by_cases hn : w.g.ndim a ≤ 1
  · refine ⟨a, w, ?_, (h.is_value hb ha).congr ⟨?_, fun i hi => ?_⟩⟩
    · refine step_made (g' := w.g) (by simpa [Call.arrays] using ha) ?_
      simp only [exec1, ND.T, if_pos hn]; rfl
    · rw [hsh]
      unfold Graph.ndim at hn
      match hs : w.g.shape a, hn with
      | [], _ => rfl
      | [x], _ => rfl
      | _ :: _ :: _, hn => simp [hs] at hn
    · rw [hsh] at hi
      have hl := hi.length
      show _ = (value b w a).get i.reverse
      congr 1
      unfold Graph.ndim at hn
      match i, hl with
      | [], _ => rfl
      | [x], _ => rfl
      | _ :: _ :: _, hl => simp at hl; omega
  · have hp : IsPerm ((List.range (w.g.ndim a)).map Int.ofNat).reverse (w.g.ndim a) := List.reverse_perm _
    have e : step b w (.T a) = step b w (.transpose a ((List.range (w.g.ndim a)).map Int.ofNat).reverse) := by
      rw [step_eq (by simpa [Call.arrays] using ha), step_eq (by simpa [Call.arrays] using ha)]
      simp only [exec1, ND.T, if_neg hn]
    have hok : step b w (.transpose a ((List.range (w.g.ndim a)).map Int.ofNat).reverse) = .ok (.arr w.g.length, { w with g := _ }) :=
      step_made (by simpa [Call.arrays] using ha) (by simp only [exec1]; rw [transpose_ok hp])
    refine ⟨_, _, e.trans hok, ?_⟩
    obtain ⟨T, hT, hlen, hshape, hget⟩ := C06_transpose hb hw ha hok
    have hax : ∀ d < (w.g.shape a).length, (geti ((List.range (w.g.ndim a)).map Int.ofNat).reverse d).toNat = (w.g.shape a).length - 1 - d := fun d hd => by
      rw [geti_eq_getElem (by simpa [Graph.ndim] using hd)]
      simp [Graph.ndim]
    have hTs : T.shape = (w.g.shape a).reverse := by
      apply ext_geti (by simp [hlen])
      intro k hk
      have hk' : k < (w.g.shape a).length := by omega
      rw [hshape k hk', hax k hk', geti_eq_getElem (by omega), geti_eq_getElem (by simpa using hk')]
      simp
    refine hT.congr ⟨hTs, fun i hi => ?_⟩
    have hil : i.length = (w.g.shape a).length := by rw [hi.length, hlen]
    have hrev : ∀ (s : List Int) (k : Nat), k < s.length → geti s.reverse k = geti s (s.length - 1 - k) := fun s k hk => by
      rw [geti_eq_getElem (by simpa using hk), geti_eq_getElem (by omega)]; simp
    apply hget i hi
    · rw [hTs] at hi
      rw [validIdx_iff] at hi ⊢
      refine ⟨by simp [hil], fun k hk => ?_⟩
      have := hi.2 ((w.g.shape a).length - 1 - k) (by simp; omega)
      rw [hrev _ _ (by omega)] at this
      rw [hrev _ _ (by omega), hil]
      have e2 : (w.g.shape a).length - 1 - ((w.g.shape a).length - 1 - k) = k := by omega
      rw [e2] at this
      exact this
    · intro d hd
      rw [hax d hd, hrev _ _ (by omega), hil]
      congr 1; omega

example : Demo.listOf [.array Demo.m23, .T 0] (.tolist 1) = some ([3, 2], [1, 4, 2, 5, 3, 6]) := by decide +kernel

/-- C07.  Transposing by `p` and then by an inverse of `p` never raises and gives back shape, strides, offset and elements. -/
theorem C07_inverse {b : Backend V} (hb : Faithful b) {w : World V} (hw : Reachable b w) {a : Nat} (ha : a < w.g.length) {p q : List Int}
    (hp : IsPerm p (w.g.ndim a)) (hq : IsPerm q (w.g.ndim a)) (hinv : ∀ d < w.g.ndim a, geti p (geti q d).toNat = d) :
    ∃ r1 w1 r2 w2, step b w (.transpose a p) = .ok (.arr r1, w1) ∧ step b w1 (.transpose r1 q) = .ok (.arr r2, w2) ∧
      w2.g.shape r2 = w.g.shape a ∧ w2.g.strides r2 = w.g.strides a ∧ w2.g.offset r2 = w.g.offset a ∧ Is b w2 r2 (value b w a) := by
  have h := hw.inv hb
  have hst : (w.g.strides a).length = w.g.ndim a := h.winv.wf.strides_length ha
  have e1 : step b w (.transpose a p) = .ok (.arr w.g.length, { w with g := w.g ++ [ND.transposeNode w.g a (p.map Int.toNat)] }) :=
    step_made (by simpa [Call.arrays] using ha) (by simp only [exec1]; rw [transpose_ok hp])
  obtain ⟨T1, hT1, hl1, hs1, hg1⟩ := C06_transpose hb hw ha e1
  have hw1 : Reachable b { w with g := w.g ++ [ND.transposeNode w.g a (p.map Int.toNat)] } := .call (c := .transpose a p) hw (.inr trivial) (by unfold next; rw [e1])
  generalize hw1e : ({ w with g := w.g ++ [ND.transposeNode w.g a (p.map Int.toNat)] } : World V) = w1 at *
  have hnd1 : w1.g.nd w.g.length = ND.transposeNode w.g a (p.map Int.toNat) := by rw [← hw1e]; exact nd_push ..
  have hq1 : IsPerm q (w1.g.ndim w.g.length) := by
    unfold Graph.ndim; rw [hT1.shape, hl1]; exact hq
  have hlt1 := hT1.exists_
  have e2 : step b w1 (.transpose w.g.length q) = .ok (.arr w1.g.length, { w1 with g := w1.g ++ [ND.transposeNode w1.g w.g.length (q.map Int.toNat)] }) :=
    step_made (by simpa [Call.arrays] using hlt1) (by simp only [exec1]; rw [transpose_ok hq1])
  obtain ⟨T2, hT2, hl2, hs2, hg2⟩ := C06_transpose hb hw1 hlt1 e2
  have hlen1 : (w1.g.shape w.g.length).length = w.g.ndim a := by rw [hT1.shape, hl1]; rfl
  have hcomp : ∀ (s : List Int), s.length = w.g.ndim a → (q.map Int.toNat).map (geti ((p.map Int.toNat).map (geti s))) = s := fun s hs => by
    apply ext_geti (by simp [hq.length, hs])
    intro k hk
    have hk' : k < w.g.ndim a := by simpa [hq.length] using hk
    rw [List.map_map, geti_map _ _ _ (by rw [hq.length]; exact hk')]
    have hqk := hq.get hk'
    have hpq := hinv k hk'
    have hqd : q.getD k default = geti q k := rfl
    simp only [Function.comp, hqd]
    rw [List.map_map, geti_map _ _ _ (by rw [hp.length]; omega)]
    have hpd : p.getD (geti q k).toNat default = geti p (geti q k).toNat := rfl
    simp only [Function.comp, hpd, hpq]; simp
  refine ⟨_, _, _, _, e1, e2, ?_, ?_, ?_, hT2.congr ⟨?_, fun i hi => ?_⟩⟩
  · show (Graph.nd _ _).shape = _
    rw [nd_push]; simp only [ND.transposeNode]
    have : w1.g.shape w.g.length = (p.map Int.toNat).map (geti (w.g.shape a)) := by unfold Graph.shape; rw [hnd1]; rfl
    rw [this]; exact hcomp _ rfl
  · show (Graph.nd _ _).strides = _
    rw [nd_push]; simp only [ND.transposeNode]
    have : w1.g.strides w.g.length = (p.map Int.toNat).map (geti (w.g.strides a)) := by unfold Graph.strides; rw [hnd1]; rfl
    rw [this]; exact hcomp _ hst
  · show (Graph.nd _ _).offset = _
    rw [nd_push]; simp only [ND.transposeNode]
    unfold Graph.offset; rw [hnd1]; rfl
  · have : T2.shape = w.g.shape a := by
      apply ext_geti (by rw [hl2, hlen1]; rfl)
      intro k hk
      have hk' : k < w.g.ndim a := by rw [hl2, hlen1] at hk; exact hk
      have hqk := hq.get hk'
      rw [hs2 k (by rw [hlen1]; exact hk'), hT1.shape, hs1 _ (by have := hqk.2; unfold Graph.ndim at this; omega), hinv k hk']; simp
    rw [this]; exact (den_shape b.A h.winv.wf ha).symm
  · have hT2s : T2.shape = w.g.shape a := by
      apply ext_geti (by rw [hl2, hlen1]; rfl)
      intro k hk
      have hk' : k < w.g.ndim a := by rw [hl2, hlen1] at hk; exact hk
      have hqk := hq.get hk'
      rw [hs2 k (by rw [hlen1]; exact hk'), hT1.shape, hs1 _ (by have := hqk.2; unfold Graph.ndim at this; omega), hinv k hk']; simp
    have hiv := hi
    rw [hT2s] at hi
    -- the intermediate index
    have hil := hi.length
    have hj : ValidIdx T1.shape ((p.map Int.toNat).map (geti i)) := by
      rw [validIdx_iff]
      refine ⟨by simp [hp.length, hl1, Graph.ndim], fun k hk => ?_⟩
      rw [hl1] at hk
      have hpk := hp.get hk
      rw [List.map_map, geti_map _ _ _ (by rw [hp.length]; exact hk), hs1 k hk]
      exact (validIdx_iff.1 hi).2 _ (by have := hpk.2; unfold Graph.ndim at this; show (geti p k).toNat < _; omega)
    have hj' : ValidIdx (w1.g.shape w.g.length) ((p.map Int.toNat).map (geti i)) := by rw [hT1.shape]; exact hj
    have e3 := hg2 i hiv _ hj' (fun d hd => by
      have hd' : d < w.g.ndim a := by rw [← hlen1]; exact hd
      have hqk := hq.get hd'
      have hpq := hinv d hd'
      rw [List.map_map, geti_map _ _ _ (by rw [hp.length]; omega)]
      have hpd : p.getD (geti q d).toNat default = geti p (geti q d).toNat := rfl
      simp only [Function.comp, hpd, hpq]; simp)
    rw [e3, hT1.value.2 _ (by rw [show (value b w1 w.g.length).shape = _ from hT1.value.1]; exact hj)]
    refine hg1 _ hj i hi (fun d hd => ?_)
    rw [List.map_map, geti_map _ _ _ (by rw [hp.length]; exact hd)]; rfl

/-- C07.  `argsort(p)` is an inverse of the permutation `p`. -/
theorem C07_argsort {p : List Nat} {n : Nat} (hp : p.Perm (List.range n)) :
    (argsort p).Perm (List.range n) ∧ ∀ d < n, p.getD ((argsort p).getD d 0) 0 = d := by
  have hr := argsort_perm_range hp
  have hl := perm_range_length hr
  refine ⟨hr, fun d hd => ?_⟩
  rw [argsort_perm hp, List.getD_eq_getElem?_getD (l := List.map _ _), List.getElem?_map, List.getElem?_range hd]
  have hm := perm_range_mem hp hd
  simp only [Option.map_some, Option.getD_some]
  rw [List.getD_eq_getElem?_getD, List.getElem?_eq_getElem (List.idxOf_lt_length_of_mem hm)]
  exact getElem_idxOf' hm

/-- C07.  `a.transpose(*p).transpose(*argsort(p))` is `a` again: shape, strides, offset, elements. -/
theorem C07_transpose_argsort {b : Backend V} (hb : Faithful b) {w : World V} (hw : Reachable b w) {a : Nat} (ha : a < w.g.length) {p : List Nat}
    (hp : p.Perm (List.range (w.g.ndim a))) :
    ∃ r1 w1 r2 w2, step b w (.transpose a (p.map Int.ofNat)) = .ok (.arr r1, w1) ∧
      step b w1 (.transpose r1 ((argsort p).map Int.ofNat)) = .ok (.arr r2, w2) ∧
      w2.g.shape r2 = w.g.shape a ∧ w2.g.strides r2 = w.g.strides a ∧ w2.g.offset r2 = w.g.offset a ∧ Is b w2 r2 (value b w a) := by
  obtain ⟨hr, hinv⟩ := C07_argsort hp
  refine C07_inverse hb hw ha (hp.map _) (hr.map _) (fun d hd => ?_)
  have hl := perm_range_length hr
  have hlp := perm_range_length hp
  have e1 : geti ((argsort p).map Int.ofNat) d = ((argsort p).getD d 0 : Nat) := geti_map _ _ _ (by omega)
  rw [e1]
  have hlt : (argsort p).getD d 0 < p.length := by
    rw [List.getD_eq_getElem?_getD, List.getElem?_eq_getElem (by omega)]
    rw [hlp]
    exact perm_range_lt hr (List.getElem_mem _)
  have e2 : geti (p.map Int.ofNat) ((((argsort p).getD d 0 : Nat) : Int).toNat) = (p.getD ((argsort p).getD d 0) 0 : Nat) := by
    rw [Int.toNat_natCast]; exact geti_map _ _ _ hlt
  rw [e2, hinv d hd]

/-- A permutation of order 3. -/
example : [1, 2, 0].Perm (List.range 3) ∧ argsort [1, 2, 0] = [2, 0, 1] := by decide

/-- C07.  `a.T.T` is `a` again: shape, strides, offset, elements. -/
theorem C07_TT {b : Backend V} (hb : Faithful b) {w : World V} (hw : Reachable b w) {a : Nat} (ha : a < w.g.length) :
    ∃ r1 w1 r2 w2, step b w (.T a) = .ok (.arr r1, w1) ∧ step b w1 (.T r1) = .ok (.arr r2, w2) ∧
      w2.g.shape r2 = w.g.shape a ∧ w2.g.strides r2 = w.g.strides a ∧ w2.g.offset r2 = w.g.offset a ∧ Is b w2 r2 (value b w a) := by
  have h := hw.inv hb
  by_cases hn : w.g.ndim a ≤ 1
  · have e : step b w (.T a) = .ok (.arr a, w) := by
      refine step_made (g' := w.g) (by simpa [Call.arrays] using ha) ?_
      simp only [exec1, ND.T, if_pos hn]; rfl
    exact ⟨a, w, a, w, e, e, rfl, rfl, rfl, h.is_value hb ha⟩
  · have hp : IsPerm ((List.range (w.g.ndim a)).map Int.ofNat).reverse (w.g.ndim a) := List.reverse_perm _
    obtain ⟨r1, w1, r2, w2, e1, e2, h1, h2, h3, h4⟩ := C07_inverse hb hw ha hp hp (fun d hd => by
      have e : ∀ k < w.g.ndim a, geti ((List.range (w.g.ndim a)).map Int.ofNat).reverse k = ((w.g.ndim a - 1 - k : Nat) : Int) := fun k hk => by
        rw [geti_eq_getElem (by simpa using hk)]; simp
      rw [e d hd, Int.toNat_natCast, e _ (by omega)]; omega)
    refine ⟨r1, w1, r2, w2, ?_, ?_, h1, h2, h3, h4⟩
    · rw [← e1, step_eq (by simpa [Call.arrays] using ha), step_eq (by simpa [Call.arrays] using ha)]
      simp only [exec1, ND.T, if_neg hn]
    · have hr1 : r1 < w1.g.length := by
        unfold step at e2
        split at e2
        · rename_i hin; exact hin r1 (by simp [Call.arrays])
        · cases e2
      have hnd : w1.g.ndim r1 = w.g.ndim a := by
        obtain ⟨T, hT, hl, _⟩ := C06_transpose hb hw ha e1
        unfold Graph.ndim; rw [hT.shape, hl]
      rw [← e2, step_eq (by simpa [Call.arrays] using hr1), step_eq (by simpa [Call.arrays] using hr1)]
      simp only [exec1, ND.T, hnd, if_neg hn]

end Whale.Props
