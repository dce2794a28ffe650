import Verif.Proofs.Graph
/-
What each array constructor/operator does to the heap: it succeeds under its documented preconditions, only adds
arrays, keeps the heap well-formed, and the new array means what the specification says.
-/
namespace Whale
variable {V : Type}

/-- A call returned array `r` in heap `g'`. -/
structure Made (g g' : Graph V) (r : Nat) : Prop where
  ext : Ext g g'
  wf : WF g'
  lt : r < g'.length

theorem made_push {g : Graph V} {n : Node V} (h : WF g) (hn : NodeOK g g.length n) : Made g (g ++ [n]) g.length :=
  ⟨Ext.push g n, h.push hn, by simp⟩

theorem made_refl {g : Graph V} {a : Nat} (h : WF g) (ha : a < g.length) : Made g g a := ⟨Ext.refl g, h, ha⟩

/-! unary -/
theorem unary_made {g : Graph V} (h : WF g) {a : Nat} (ha : a < g.length) {op : Ops} (ho : op.isUnary = true) :
    Made g (ND.unary g op a).2 (ND.unary g op a).1 ∧
    ∀ A : Scalar V, den A (ND.unary g op a).2 (ND.unary g op a).1 = (den A g a).map (A.un op) := by
  have hn : NodeOK g g.length (ND.elemwiseNode g (.unary op a) a) := ⟨ha, ho, rfl⟩
  exact ⟨made_push h hn, fun A => den_push A h hn⟩

/-! broadcast -/
theorem bcastOK.length {s t : List Int} (h : bcastOK s t) : s.length = t.length := by
  induction s generalizing t with
  | nil => cases t <;> simp_all [bcastOK]
  | cons a s ih => cases t with
    | nil => simp [bcastOK] at h
    | cons b t => simp [ih h.2]

theorem bcastOK.refl (s : List Int) : bcastOK s s := by
  induction s with
  | nil => trivial
  | cons a s ih => exact ⟨Or.inl rfl, ih⟩

theorem BroadcastsTo.refl (s : List Int) : BroadcastsTo s s := by
  simp [BroadcastsTo, bcastOK.refl]

theorem broadcast_made {g : Graph V} (h : WF g) {a : Nat} (ha : a < g.length) {s : List Int} (hb : BroadcastsTo (g.shape a) s) :
    Made g (ND.broadcastTo g a s).2 (ND.broadcastTo g a s).1 ∧
    ∀ A : Scalar V, den A (ND.broadcastTo g a s).2 (ND.broadcastTo g a s).1 = (den A g a).broadcastTo s := by
  have hn : NodeOK g g.length (ND.broadcastNode g a s) := ⟨ha, hb, rfl⟩
  exact ⟨made_push h hn, fun A => den_push A h hn⟩

theorem bcastOK_drop {n : Nat} {s r : List Int} (h : bcastOK (List.replicate n 1 ++ s) r) : bcastOK s (r.drop n) := by
  induction n generalizing r with
  | zero => simpa using h
  | succ n ih => cases r with
    | nil => simp [List.replicate_succ, bcastOK] at h
    | cons b r => rw [List.replicate_succ, List.cons_append] at h; exact ih h.2

theorem broadcastDims_ok {l1 l2 r : List Int} (hl : l1.length = l2.length) (h : ND.broadcastDims l1 l2 = .ok r) :
    bcastOK l1 r ∧ bcastOK l2 r := by
  induction l1 generalizing l2 r with
  | nil =>
    cases l2 with
    | nil => simp only [ND.broadcastDims, pure, Except.pure, Except.ok.injEq] at h; subst h; exact ⟨trivial, trivial⟩
    | cons _ _ => simp at hl
  | cons a l1 ih => cases l2 with
    | nil => simp at hl
    | cons b l2 =>
      simp only [ND.broadcastDims] at h
      cases h1 : ND.broadcastDims l1 l2 with
      | error e =>
        rw [h1] at h
        by_cases hab : a = b <;> by_cases ha : a = 1 <;> by_cases hb : b = 1 <;>
          simp [hab, ha, hb, bind, Except.bind, pure, Except.pure, throw, throwThe, MonadExceptOf.throw] at h <;> grind
      | ok r' =>
        rw [h1] at h
        have ⟨i1, i2⟩ := ih (by simpa using hl) h1
        split at h
        · simp only [bind, Except.bind, pure, Except.pure, Except.ok.injEq] at h
          subst h; exact ⟨⟨Or.inl rfl, i1⟩, ⟨Or.inl (by omega), i2⟩⟩
        · split at h
          · simp only [bind, Except.bind, pure, Except.pure, Except.ok.injEq] at h
            subst h; exact ⟨⟨Or.inr (by omega), i1⟩, ⟨Or.inl rfl, i2⟩⟩
          · split at h
            · simp only [bind, Except.bind, pure, Except.pure, Except.ok.injEq] at h
              subst h; exact ⟨⟨Or.inl rfl, i1⟩, ⟨Or.inr (by omega), i2⟩⟩
            · simp [bind, Except.bind, throw, throwThe, MonadExceptOf.throw] at h

theorem broadcastShapes_ok {s1 s2 r : List Int} (h : ND.broadcastShapes s1 s2 = .ok r) :
    BroadcastsTo s1 r ∧ BroadcastsTo s2 r ∧ r.length = max s1.length s2.length := by
  unfold ND.broadcastShapes at h
  simp only at h
  have ⟨h1, h2⟩ := broadcastDims_ok (by simp; omega) h
  have l1 := h1.length
  have l2 := h2.length
  simp only [List.length_append, List.length_replicate] at l1 l2
  have e1 : max s1.length s2.length - s1.length = r.length - s1.length := by omega
  have e2 : max s1.length s2.length - s2.length = r.length - s2.length := by omega
  rw [e1] at h1
  rw [e2] at h2
  exact ⟨⟨by omega, bcastOK_drop h1⟩, ⟨by omega, bcastOK_drop h2⟩, by omega⟩

theorem bcastIdx_self {s idx : List Int} (h : ValidIdx s idx) :
    List.zipWith (fun d i => if d = 1 then 0 else i) s idx = idx := by
  induction s generalizing idx with
  | nil => simp at h; subst h; simp
  | cons a s ih => cases idx with
    | nil => simp at h
    | cons i is =>
      simp only [List.zipWith_cons_cons, ih h.2]
      have := h.1
      split <;> simp <;> omega

/-- Broadcasting to the own shape does nothing. -/
theorem broadcastTo_self (t : Tensor V) : (t.broadcastTo t.shape).Equiv t :=
  ⟨rfl, fun idx hi => by
    have hi' : ValidIdx t.shape idx := hi
    simp [Tensor.broadcastTo, bcastIdx_self hi']⟩

/-- One side of `broadcasted`. -/
theorem maybe_broadcast {g : Graph V} (h : WF g) {a : Nat} (ha : a < g.length) {s : List Int} (hb : BroadcastsTo (g.shape a) s) :
    ∃ l g', (if g.shape a ≠ s then ND.broadcastTo g a s else (a, g)) = (l, g') ∧ Made g g' l ∧ g'.shape l = s ∧
      ∀ A : Scalar V, (den A g' l).Equiv ((den A g a).broadcastTo s) := by
  by_cases hs : g.shape a = s
  · refine ⟨a, g, by simp [hs], made_refl h ha, hs, fun A => ?_⟩
    have := broadcastTo_self (den A g a)
    rw [den_shape A h ha, hs] at this
    exact this.symm
  · have ⟨m, d⟩ := broadcast_made h ha hb
    refine ⟨_, _, if_pos hs, m, ?_, fun A => d A ▸ Tensor.Equiv.refl _⟩
    simp [ND.broadcastTo, Graph.push, Graph.shape, nd_push, ND.broadcastNode]

theorem Tensor.Equiv.zip {t t' u u' : Tensor V} (f : V → V → V) (h : t.Equiv t') (k : u.Equiv u') (hs : t.shape = u.shape) :
    (t.zip f u).Equiv (t'.zip f u') :=
  ⟨h.1, fun idx hi => by simp only [Tensor.zip]; rw [h.2 idx hi, k.2 idx (hs ▸ hi)]⟩

/-- Binary operators: succeed with the broadcast shape, elementwise meaning. -/
theorem binary_made {g : Graph V} (h : WF g) {a b : Nat} (ha : a < g.length) (hb : b < g.length) {op : Ops}
    (ho : op.isBinary = true) {s : List Int} (hs : ND.broadcastShapes (g.shape a) (g.shape b) = .ok s) :
    ∃ r g', ND.binary g op a b = .ok (r, g') ∧ Made g g' r ∧ g'.shape r = s ∧
      ∀ A : Scalar V, (den A g' r).Equiv (((den A g a).broadcastTo s).zip (A.bin op) ((den A g b).broadcastTo s)) := by
  have ⟨b1, b2, _⟩ := broadcastShapes_ok hs
  obtain ⟨l, g1, e1, m1, s1, d1⟩ := maybe_broadcast h ha b1
  have hb1 : b < g1.length := Nat.lt_of_lt_of_le hb m1.ext.length
  obtain ⟨r, g2, e2, m2, s2, d2⟩ := maybe_broadcast m1.wf hb1 (s := s) (by rw [m1.ext.shape hb]; exact b2)
  have hl2 : l < g2.length := Nat.lt_of_lt_of_le m1.lt m2.ext.length
  have hls : g2.shape l = s := by rw [m2.ext.shape m1.lt, s1]
  have hn : NodeOK g2 g2.length (ND.elemwiseNode g2 (.binary op l r) l) :=
    ⟨hl2, m2.lt, ho, by rw [s2, hls], rfl⟩
  have m3 := made_push m2.wf hn
  refine ⟨_, _, ?_, ⟨(m1.ext.trans m2.ext).trans m3.ext, m3.wf, m3.lt⟩, ?_, fun A => ?_⟩
  · simp only [ND.binary, ND.broadcasted, hs, bind, Except.bind, e1, e2, pure, Except.pure, Graph.push]
  · simp [Graph.shape, nd_push, ND.elemwiseNode]; exact hls
  · rw [den_push A m2.wf hn]
    simp only [denCtx, ND.elemwiseNode]
    have d2' := d2 A
    rw [den_ext A m1.ext m1.wf hb] at d2'
    refine Tensor.Equiv.zip _ ?_ d2' ?_
    · rw [den_ext A m2.ext m2.wf m1.lt]; exact d1 A
    · rw [den_shape A m2.wf hl2, den_shape A m2.wf m2.lt, hls, s2]

/-! sum -/
theorem normAxis_lt {n : Nat} {ax : AxisArg} {l : List Nat} (h : ND.normAxis n ax = .ok l) : ∀ a ∈ l, a < n := by
  unfold ND.normAxis at h
  split at h
  · simp [throw, throwThe, MonadExceptOf.throw] at h
  · rename_i hc
    simp only [pure, Except.pure, Except.ok.injEq] at h
    subst h
    intro a ha
    simp only [List.mem_map] at ha
    obtain ⟨x, hx, rfl⟩ := ha
    have : n ≠ 0 := by
      intro h0
      apply hc
      refine ⟨h0, ?_⟩
      intro he
      simp only [List.isEmpty_iff] at he
      rw [he] at hx
      simp at hx
    have h1 := Int.emod_nonneg x (b := n) (by omega)
    have h2 := Int.emod_lt_of_pos x (b := n) (by omega)
    omega

theorem sum_made {g : Graph V} (h : WF g) {a : Nat} (ha : a < g.length) {ax : AxisArg} {kd : Bool} {l : List Nat}
    (hl : ND.normAxis (g.ndim a) ax = .ok l) :
    ∃ r g', ND.sum g a ax kd = .ok (r, g') ∧ Made g g' r ∧ ∀ A : Scalar V, den A g' r = (den A g a).sum A l kd := by
  have hn : NodeOK g g.length (ND.reduceNode g a l kd) := ⟨ha, normAxis_lt hl, rfl⟩
  refine ⟨_, _, ?_, made_push h hn, fun A => den_push A h hn⟩
  simp [ND.sum, hl, bind, Except.bind, pure, Except.pure, Graph.push]

/-! indexing -/
/-- A normalised subscript entry is legal for an axis. -/
def Sub.OK (size : Int) : Sub → Prop
  | .int i => 0 ≤ i ∧ i < size
  | .slice a b c => (0 ≤ a ∧ a ≤ size) ∧ (0 ≤ b ∧ b ≤ size) ∧ 0 < c

theorem normSub_ok {size : Int} (hs : 0 ≤ size) {r : RawSub} {s : Sub} (h : ND.normSub size r = .ok s) : s.OK size := by
  cases r with
  | int i =>
    simp only [ND.normSub] at h
    generalize (if i < 0 then i + size else i) = ss at h
    split at h <;> simp only [pure, Except.pure, Except.ok.injEq, throw, throwThe, MonadExceptOf.throw, reduceCtorEq] at h
    subst h; simp only [Sub.OK]; assumption
  | slice st sp step =>
    simp only [ND.normSub] at h
    generalize (if st.getD 0 < 0 then st.getD 0 + size else st.getD 0) = s1 at h
    generalize (if sp.getD size < 0 then sp.getD size + size else sp.getD size) = s2 at h
    split at h <;> simp only [pure, Except.pure, Except.ok.injEq, throw, throwThe, MonadExceptOf.throw, reduceCtorEq] at h
    subst h; simp only [Sub.OK]; omega
  | other => simp [ND.normSub, throw, throwThe, MonadExceptOf.throw] at h

theorem normSubs_ok {shape : List Int} (hs : NonNeg shape) {rs : List RawSub} (hl : rs.length = shape.length) {subs : List Sub}
    (h : ND.normSubs shape rs = .ok subs) : SubsOK shape subs := by
  induction shape generalizing rs subs with
  | nil => cases rs <;> simp_all [ND.normSubs, pure, Except.pure]; subst h; trivial
  | cons a s ih => cases rs with
    | nil => simp at hl
    | cons r rs =>
      rw [NonNeg.cons] at hs
      simp only [ND.normSubs] at h
      cases h1 : ND.normSub a r with
      | error e => rw [h1] at h; simp [bind, Except.bind] at h
      | ok n =>
        cases h2 : ND.normSubs s rs with
        | error e => rw [h1, h2] at h; simp [bind, Except.bind] at h
        | ok m =>
          rw [h1, h2] at h
          simp only [bind, Except.bind, pure, Except.pure, Except.ok.injEq] at h
          subst h
          have := normSub_ok hs.1 h1
          have i := ih hs.2 (by simpa using hl) h2
          cases n <;> exact ⟨this, i⟩

theorem slice_made {g : Graph V} (h : WF g) {a : Nat} (ha : a < g.length) {subs : List Sub} (hs : SubsOK (g.shape a) subs) :
    Made g (g ++ [ND.sliceNode g a subs]) g.length ∧
    ∀ A : Scalar V, den A (g ++ [ND.sliceNode g a subs]) g.length = (den A g a).slice subs := by
  have hn : NodeOK g g.length (ND.sliceNode g a subs) := ⟨ha, hs, rfl⟩
  exact ⟨made_push h hn, fun A => den_push A h hn⟩

theorem getitem_made {g : Graph V} (h : WF g) {a : Nat} (ha : a < g.length) (hnn : NonNeg (g.shape a)) {rs : List RawSub}
    (hlen : rs.length ≤ g.ndim a) {subs : List Sub}
    (hs : ND.normSubs (g.shape a) (rs ++ List.replicate (g.ndim a - rs.length) (RawSub.slice none none none)) = .ok subs) :
    ∃ r g', ND.getitem g a rs = .ok (r, g') ∧ Made g g' r ∧ ∀ A : Scalar V, den A g' r = (den A g a).slice subs := by
  have hok := normSubs_ok hnn (by simp [Graph.ndim] at *; omega) hs
  have ⟨m, d⟩ := slice_made h ha hok
  refine ⟨_, _, ?_, m, d⟩
  simp only [ND.getitem, hs, bind, Except.bind, pure, Except.pure, Graph.push]
  rw [if_neg (by omega)]

/-! transpose -/
theorem perm_of_sorted_axes {n : Nat} {axes : List Int} (h : axes.pySort = (List.range n).map Int.ofNat) :
    (axes.map Int.toNat).Perm (List.range n) := by
  have hp : axes.Perm ((List.range n).map Int.ofNat) := by
    rw [← h]; exact (List.pySort_perm axes _).symm
  have := hp.map Int.toNat
  rw [List.map_map] at this
  simpa [Function.comp_def] using this

theorem transpose_made {g : Graph V} (h : WF g) {a : Nat} (ha : a < g.length) {axes : List Int}
    (hp : axes.pySort = (List.range (g.ndim a)).map Int.ofNat) :
    ∃ r g', ND.transpose g a axes = .ok (r, g') ∧ Made g g' r ∧
      ∀ A : Scalar V, den A g' r = (den A g a).transpose (axes.map Int.toNat) := by
  have hn : NodeOK g g.length (ND.transposeNode g a (axes.map Int.toNat)) := ⟨ha, perm_of_sorted_axes hp, rfl⟩
  refine ⟨_, _, ?_, made_push h hn, fun A => den_push A h hn⟩
  simp only [ND.transpose, bind, Except.bind, pure, Except.pure, Graph.push]
  rw [if_neg (by simpa using hp)]

/-! contiguous, reshape -/
theorem contiguous_made {g : Graph V} (h : WF g) {a : Nat} (ha : a < g.length) :
    Made g (ND.contiguous g a).2 (ND.contiguous g a).1 ∧ (ND.contiguous g a).2.shape (ND.contiguous g a).1 = g.shape a ∧
    (ND.contiguous g a).2.strides (ND.contiguous g a).1 = stridesFromShape (g.shape a) ∧
    ∀ A : Scalar V, den A (ND.contiguous g a).2 (ND.contiguous g a).1 = den A g a := by
  unfold ND.contiguous
  by_cases hc : ND.isContiguous g a = true
  · rw [if_pos hc]
    exact ⟨made_refl h ha, rfl, by simpa [ND.isContiguous] using hc, fun A => rfl⟩
  · rw [if_neg hc]
    have hn : NodeOK g g.length (ND.elemwiseNode g (.contiguous a) a) := ⟨ha, rfl⟩
    refine ⟨made_push h hn, ?_, ?_, fun A => den_push A h hn⟩ <;>
    simp [Graph.push, Graph.shape, Graph.strides, nd_push, ND.elemwiseNode]

theorem reshape_made {g : Graph V} (h : WF g) {a : Nat} (ha : a < g.length) {s : List Int} (hs : prod s = prod (g.shape a))
    (hnn : NonNeg s) (hna : NonNeg (g.shape a)) :
    ∃ r g', ND.reshape g a s = .ok (r, g') ∧ Made g g' r ∧ ∀ A : Scalar V, den A g' r = (den A g a).reshape s := by
  have ⟨m, sh, st, d⟩ := contiguous_made h ha
  rcases hcc : ND.contiguous g a with ⟨c, g1⟩
  rw [hcc] at m sh st d
  simp only at m sh st d
  have hn : NodeOK g1 g1.length (ND.reshapeNode g1 c s) :=
    ⟨m.lt, by rw [sh, hs], hnn, by rw [sh]; exact hna, by rw [st, sh], rfl⟩
  have m2 := made_push m.wf hn
  refine ⟨_, _, ?_, ⟨m.ext.trans m2.ext, m2.wf, m2.lt⟩, fun A => ?_⟩
  · simp only [ND.reshape, bind, Except.bind, pure, Except.pure, Graph.push, hcc]
    rw [if_neg (by simpa using hs)]
  · rw [den_push A m.wf hn, ← d A]; rfl

/-! pad, dilate -/
theorem pyPos_nonneg {n : Nat} {d : Int} (h0 : 0 ≤ d) (h1 : d < n) : pyPos n d = some d.toNat := by
  unfold pyPos; rw [if_pos ⟨h0, h1⟩]

theorem pad_zero_equiv (A : Scalar V) (t : Tensor V) (d : Nat) (hd : d < t.shape.length) : (t.pad A d 0 0).Equiv t := by
  have hsh : t.shape.set d (geti t.shape d + (0 + 0)) = t.shape := by
    apply ext_geti (by simp)
    intro k _; rw [geti_set]; split <;> simp_all
  refine ⟨hsh, fun idx hi => ?_⟩
  have hi' : ValidIdx t.shape idx := by rw [← hsh]; exact hi
  simp only [Tensor.pad]
  have hb := (validIdx_iff.1 hi').2 d hd
  rw [if_pos (by omega)]
  congr 1
  apply ext_geti (by simp)
  intro k _; rw [geti_set]; split <;> simp_all

theorem pad_made {g : Graph V} (h : WF g) {a : Nat} (ha : a < g.length) {dim b c : Int} (h0 : 0 ≤ dim) (h1 : dim < g.ndim a) :
    ∃ r g', ND.pad g a dim b c = .ok (r, g') ∧ Made g g' r ∧
      ∀ A : Scalar V, (den A g' r).Equiv ((den A g a).pad A dim.toNat b c) := by
  unfold ND.pad
  rw [if_neg (by omega)]
  by_cases hz : b = 0 ∧ c = 0
  · rw [if_pos hz]
    refine ⟨_, _, rfl, made_refl h ha, fun A => ?_⟩
    rw [hz.1, hz.2]
    exact (pad_zero_equiv A _ _ (by rw [den_shape A h ha]; simp [Graph.ndim] at h1; omega)).symm
  · rw [if_neg hz, pyPos_nonneg h0 h1]
    have hn : NodeOK g g.length (ND.padNode g a dim.toNat dim b c) := ⟨ha, ⟨h0, h1⟩, rfl⟩
    refine ⟨_, _, rfl, made_push h hn, fun A => ?_⟩
    exact (den_push A h hn) ▸ Tensor.Equiv.refl _

theorem dilate_one_equiv (A : Scalar V) (t : Tensor V) (d : Nat) (_hd : d < t.shape.length) : (t.dilate A d 1).Equiv t := by
  have hsh : t.shape.set d ((geti t.shape d - 1) * 1 + 1) = t.shape := by
    apply ext_geti (by simp)
    intro k _; rw [geti_set]; split <;> simp_all
  refine ⟨hsh, fun idx hi => ?_⟩
  simp only [Tensor.dilate, Int.emod_one, if_true, Int.ediv_one]
  congr 1
  apply ext_geti (by simp)
  intro k _; rw [geti_set]; split <;> simp_all

theorem dilate_made {g : Graph V} (h : WF g) {a : Nat} (ha : a < g.length) {dim st : Int} (h0 : 0 ≤ dim) (h1 : dim < g.ndim a)
    (hst : 1 ≤ st) :
    ∃ r g', ND.dilate g a dim st = .ok (r, g') ∧ Made g g' r ∧
      ∀ A : Scalar V, (den A g' r).Equiv ((den A g a).dilate A dim.toNat st) := by
  unfold ND.dilate
  rw [if_neg (by omega)]
  by_cases hz : st = 1
  · rw [if_pos hz]
    refine ⟨_, _, rfl, made_refl h ha, fun A => ?_⟩
    rw [hz]
    exact (dilate_one_equiv A _ _ (by rw [den_shape A h ha]; simp [Graph.ndim] at h1; omega)).symm
  · rw [if_neg hz, pyPos_nonneg h0 h1]
    have hn : NodeOK g g.length (ND.dilateNode g a dim.toNat dim st) := ⟨ha, ⟨h0, h1⟩, hst, rfl⟩
    refine ⟨_, _, rfl, made_push h hn, fun A => ?_⟩
    exact (den_push A h hn) ▸ Tensor.Equiv.refl _

/-! constants -/
theorem const_made (A : Scalar V) {g : Graph V} (h : WF g) {s : List Int} {l : List V} (hs : NonNeg s) (hl : (l.length : Int) = prod s) :
    Made g (ND.const A g s l).2 (ND.const A g s l).1 ∧
    ∀ B : Scalar V, den B (ND.const A g s l).2 (ND.const A g s l).1 = .ofFlat (B.ofInt 0) s l := by
  have hn : NodeOK g g.length (ND.constNode A s l) := ⟨l, rfl, hl, hs, rfl, rfl, by
    simp only [ND.constNode, ND.constDtype]
    split
    · split <;> simp
    · simp⟩
  exact ⟨made_push h hn, fun B => den_push B h hn⟩

end Whale
