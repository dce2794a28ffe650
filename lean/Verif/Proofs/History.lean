import Verif.Proofs.Account
import Verif.Proofs.Stopped
import Verif.Proofs.Refs
import Verif.Spec.History
/-
The invariant of all reachable worlds.
-/
namespace Whale
open Mat Hist
variable {V : Type}

/-- In the domain of `materialize` no kernel has an empty array or an unacceptable grid. -/
theorem kernelSizes_of {g : Graph V} (hw : WF g) {a : Nat} (ha : a < g.length) (hns : NoScalarReshape g (base g a)) (hne : NoEmpty g (base g a) ∧ FitsGrid g (base g a)) : KernelSizes g (base g a) := by
  intro funcs t ht f hf F hF i hi
  have hbl := Nat.lt_of_le_of_lt (base_le hw ha) ha
  have hr := convert_refs hw hbl hns ht
  have hr' : Reach g (base g a) f := by
    obtain ⟨funcs', t', e', _, _, _, hent⟩ := convert_ok hw hbl hns (base_base hw ha)
    rw [ht] at e'; cases e'; exact (hent f hf).1
  refine ⟨hne.1 i ?_, fun e => by rw [e]; exact hne.2 funcs t ht f hf⟩
  rcases hi with rfl | hi | hi
  · exact hr'
  · exact hr'.trans (hr f F hF i (mem_refs.2 (.inl hi)))
  · exact hr'.trans (hr f F hF i (mem_refs.2 (.inr hi)))

structure InvG (p : Prop) (b : Backend V) (w : World V) : Prop where
  winv : WInv b w
  nn : NN w.g
  gs : GradShapes w
  acc : p → Acc w (w.log.map (·.1))

/-- The invariant of programs without interrupted calls: also the accounting of the cache is right. -/
abbrev Inv (b : Backend V) (w : World V) : Prop := InvG True b w

/-- What survives any call: arrays, their data and their availability. -/
structure Later (b : Backend V) (w w' : World V) : Prop where
  ext : Ext w.g w'.g
  cpuMono : ∀ i, (w.cpu i).isSome → (w'.cpu i).isSome
  devMono : ∀ i, (w.dev i).isSome → (w'.dev i).isSome

theorem Later.refl (b : Backend V) (w : World V) : Later b w w := ⟨.refl _, fun _ h => h, fun _ h => h⟩
theorem Later.trans {b : Backend V} {w w' w'' : World V} (h : Later b w w') (k : Later b w' w'') : Later b w w'' :=
  ⟨h.ext.trans k.ext, fun i hi => k.cpuMono i (h.cpuMono i hi), fun i hi => k.devMono i (h.devMono i hi)⟩

theorem cpuBuf_mono {w w' : World V} {i : Nat} (hn : w'.g.nd i = w.g.nd i) (hm : (w.cpu i).isSome → (w'.cpu i).isSome) (h : (cpuBuf w i).isSome) : (cpuBuf w' i).isSome := by
  unfold cpuBuf at *
  rw [hn]
  cases hc : w.cpu i with
  | some l =>
    obtain ⟨l', hl'⟩ := Option.isSome_iff_exists.1 (hm (by rw [hc]; rfl))
    rw [hl']; rfl
  | none =>
    rw [hc, Option.none_or] at h
    cases w'.cpu i with
    | some l => rfl
    | none => exact h

theorem Later.avail {b : Backend V} {w w' : World V} (h : Later b w w') {i : Nat} (hi : i < w.g.length) (ha : Avail b w i) : Avail b w' i :=
  ha.imp (cpuBuf_mono (h.ext.nd hi) (h.cpuMono i)) fun p => ⟨p.1, h.devMono i p.2⟩

/-- Adding arrays keeps the invariant. -/
theorem WInv.ext {b : Backend V} {w : World V} (h : WInv b w) {g : Graph V} (he : Ext w.g g) (hw : WF g) (hn : NN g) (gr : Nat → Option Nat) :
    WInv b { w with g := g, grad := gr } := by
  refine ⟨hw, fun i hi => (hn i hi).1, fun i l hl => ?_, fun i l hl => ?_, h.cache, ?_⟩
  · obtain ⟨h1, h2⟩ := h.cpu i l hl
    exact ⟨Nat.lt_of_lt_of_le h1 he.length, by rw [h2, den_ext b.A he hw h1]⟩
  · obtain ⟨h1, h2⟩ := h.dev i l hl
    exact ⟨Nat.lt_of_lt_of_le h1 he.length, by rw [h2, den_ext b.A he hw h1]⟩
  · refine ⟨h.ev.ok, h.ev.dev, fun i hi hd => ?_⟩
    obtain ⟨l, hl⟩ := Option.isSome_iff_exists.1 hd
    have hlt := (h.dev i l hl).1
    exact (h.ev.src i hi hd).imp_left fun p => ⟨cpuBuf_mono (w' := { w with g := g, grad := gr }) (he.nd hlt) (fun h => h) p.1, p.2⟩

theorem GradShapes.ext {w : World V} (h : GradShapes w) {g : Graph V} (he : Ext w.g g) : GradShapes { w with g := g } := by
  intro i k hk
  obtain ⟨h1, h2, h3⟩ := h i k hk
  exact ⟨Nat.lt_of_lt_of_le h1 he.length, Nat.lt_of_lt_of_le h2 he.length, by
    show g.shape k = g.shape i
    rw [he.shape h1, he.shape h2]; exact h3⟩

/-- The result of a call: the invariant, what survives, and the returned array exists. -/
structure CallOKG (p : Prop) (b : Backend V) (w w' : World V) (o : Out V) : Prop where
  inv : InvG p b w'
  later : Later b w w'
  lt : ∀ r, o = .arr r → r < w'.g.length

abbrev CallOK (b : Backend V) (w w' : World V) (o : Out V) : Prop := CallOKG True b w w' o

theorem made_inv {p : Prop} {b : Backend V} {w : World V} (h : InvG p b w) {g' : Graph V} {r : Nat} {s : List Int} (m : MadeS w.g g' r s) :
    CallOKG p b w { w with g := g' } (.arr r) :=
  ⟨⟨h.winv.ext m.ext m.wf m.nn w.grad, m.nn, h.gs.ext m.ext, fun hp => ⟨(h.acc hp).nodup, (h.acc hp).keys, (h.acc hp).hist, (h.acc hp).hits, (h.acc hp).tick⟩⟩,
    ⟨m.ext, fun _ h => h, fun _ h => h⟩, fun r' hr => by cases hr; exact m.lt⟩

theorem Un.isUnary (op : Un) : op.op.isUnary = true := by cases op <;> decide
theorem Bn.arith (op : Bn) : op.op ∈ arith := by cases op <;> decide

theorem array_s (A : Scalar V) {g : Graph V} (h : WF g) (hnn : NN g) {v : Nested V} (hv : Rect v) :
    ND.array A g v = .ok (ND.const A g (shapeOf v) (leaves v)) ∧ MadeS g (ND.const A g (shapeOf v) (leaves v)).2 (ND.const A g (shapeOf v) (leaves v)).1 (shapeOf v) ∧
    ∀ B : Scalar V, den B (ND.const A g (shapeOf v) (leaves v)).2 (ND.const A g (shapeOf v) (leaves v)).1 = .ofFlat (B.ofInt 0) (shapeOf v) (leaves v) := by
  have e := arrayGo_new v [] [] hv
  rw [List.length_nil] at e
  have hl : ((leaves v).length : Int) = prod (shapeOf v) := by
    rw [HasShape.length_leaves hv (shapeOf_nonNeg v)]
    exact NonNeg.toNat_prod (shapeOf_nonNeg v)
  refine ⟨?_, const_s A h hnn (shapeOf_nonNeg v) hl⟩
  unfold ND.array
  rw [e]; rfl

theorem hasShapeL_leaves (l : List V) : HasShapeL [] (l.map Nested.leaf) := by
  induction l with
  | nil => trivial
  | cons a l ih => exact ⟨trivial, ih⟩

theorem arange_rect (A : Scalar V) (n : Int) : Rect (.node ((irange n).map fun i => Nested.leaf (A.host i))) := by
  have e : (irange n).map (fun i => Nested.leaf (A.host i)) = ((irange n).map A.host).map Nested.leaf := by simp
  rw [e]
  cases hl : (irange n).map A.host with
  | nil => exact ⟨rfl, trivial⟩
  | cons a l =>
    refine ⟨rfl, ?_⟩
    exact hasShapeL_leaves (a :: l)

theorem full_s (A : Scalar V) {g : Graph V} (h : WF g) (hnn : NN g) {s : List Int} (hs : NonNeg s) (v : V) :
    MadeS g (ND.full A g s v).2 (ND.full A g s v).1 s ∧ ∀ B : Scalar V, (den B (ND.full A g s v).2 (ND.full A g s v).1).Equiv ⟨s, fun _ => v⟩ := by
  have := const_s A h hnn (s := s) (l := List.replicate (prod s).toNat v) hs (by rw [List.length_replicate]; exact hs.toNat_prod)
  refine ⟨this.1, fun B => ?_⟩
  have e := this.2 B
  exact (Tensor.Equiv.of_eq e).trans (ofFlat_replicate _ _)

/-- Success of the calls that check their arguments. -/
theorem binary_inv {g : Graph V} {op : Ops} {a b : Nat} {p : Nat × Graph V} (h : ND.binary g op a b = .ok p) : ∃ s, ND.broadcastShapes (g.shape a) (g.shape b) = .ok s := by
  unfold ND.binary ND.broadcasted at h
  obtain ⟨q, h1, _⟩ := except_bind_ok h
  obtain ⟨s, h2, _⟩ := except_bind_ok h1
  exact ⟨s, h2⟩

theorem sum_inv {g : Graph V} {a : Nat} {ax : AxisArg} {kd : Bool} {p : Nat × Graph V} (h : ND.sum g a ax kd = .ok p) : ∃ l, ND.normAxis (g.ndim a) ax = .ok l := by
  unfold ND.sum at h
  obtain ⟨q, h1, _⟩ := except_bind_ok h
  exact ⟨q, h1⟩

theorem getitem_inv {g : Graph V} {a : Nat} {rs : List RawSub} {p : Nat × Graph V} (h : ND.getitem g a rs = .ok p) : rs.length ≤ g.ndim a ∧
    ∃ subs, ND.normSubs (g.shape a) (rs ++ List.replicate (g.ndim a - rs.length) (RawSub.slice none none none)) = .ok subs := by
  unfold ND.getitem at h
  split at h
  · cases h
  · rename_i hl
    obtain ⟨q, h1, _⟩ := except_bind_ok h
    exact ⟨by omega, q, h1⟩

theorem reshape_inv {g : Graph V} {a : Nat} {s : List Int} {p : Nat × Graph V} (h : ND.reshape g a s = .ok p) : prod s = prod (g.shape a) := by
  by_cases hp : prod s = prod (g.shape a)
  · exact hp
  · simp [ND.reshape, hp, bind, Except.bind, throw, throwThe, MonadExceptOf.throw] at h

theorem transpose_inv {g : Graph V} {a : Nat} {axes : List Int} {p : Nat × Graph V} (h : ND.transpose g a axes = .ok p) :
    axes.pySort = (List.range (g.ndim a)).map Int.ofNat := by
  unfold ND.transpose at h
  split at h
  · cases h
  · rename_i hp; exact not_not.1 hp

theorem pad_inv {g : Graph V} {a : Nat} {d x y : Int} {p : Nat × Graph V} (h : ND.pad g a d x y = .ok p) : d < g.ndim a := by
  unfold ND.pad at h
  split at h
  · cases h
  · omega

theorem dilate_inv {g : Graph V} {a : Nat} {d s : Int} {p : Nat × Graph V} (h : ND.dilate g a d s = .ok p) : d < g.ndim a := by
  unfold ND.dilate at h
  split at h
  · cases h
  · omega

theorem made_eq {w : World V} {p : Nat × Graph V} {o : Out V} {w' : World V} (h : made w p = .ok (o, w')) : o = .arr p.1 ∧ w' = { w with g := p.2 } := by
  unfold made at h; cases h; exact ⟨rfl, rfl⟩

theorem madeE_eq {w : World V} {p : Except Err (Nat × Graph V)} {o : Out V} {w' : World V} (h : madeE w p = .ok (o, w')) :
    ∃ r g', p = .ok (r, g') ∧ o = .arr r ∧ w' = { w with g := g' } := by
  unfold madeE at h
  obtain ⟨⟨r, g'⟩, h1, h2⟩ := except_bind_ok (f := made w) h
  obtain ⟨rfl, rfl⟩ := made_eq h2
  exact ⟨r, g', h1, rfl, rfl⟩

theorem T_s {g : Graph V} (h : WF g) (hnn : NN g) {a : Nat} (ha : a < g.length) :
    ∃ r g', ND.T g a = .ok (r, g') ∧ MadeS g g' r (g.shape a).reverse := by
  unfold ND.T
  split
  · rename_i hn
    refine ⟨a, g, rfl, ?_⟩
    have : (g.shape a).reverse = g.shape a := by
      unfold Graph.ndim at hn
      match hs : g.shape a, hn with
      | [], _ => rfl
      | [x], _ => rfl
      | _ :: _ :: _, hn => simp [hs] at hn
    rw [this]; exact madeS_refl h ha hnn
  · obtain ⟨r, g', e, m, _⟩ := transpose_s h hnn ha (axes := ((List.range (g.ndim a)).map Int.ofNat).reverse) (by
      apply List.Perm.eq_of_pairwise (le := (· ≤ ·))
      · intro x y _ _ h1 h2; exact Int.le_antisymm h1 h2
      · have := List.pairwise_pySort (le := fun a b : Int => decide (a ≤ b)) (by simpa using fun a b c => Int.le_trans) (by simpa using Int.le_total) (((List.range (g.ndim a)).map Int.ofNat).reverse)
        exact this.imp (by simp)
      · rw [List.pairwise_map]
        exact List.pairwise_lt_range.imp (fun h => by simp; omega)
      · exact (List.pySort_perm _ _).trans (List.reverse_perm _))
    refine ⟨r, g', e, ?_⟩
    have : ((((List.range (g.ndim a)).map Int.ofNat).reverse).map Int.toNat).map (geti (g.shape a)) = (g.shape a).reverse := by
      rw [List.map_reverse, List.map_map, List.map_reverse, List.map_map]
      congr 1
      apply List.ext_getElem (by simp [Graph.ndim])
      intro k h1 h2
      simp [geti_eq_getElem h2]
    rw [this] at m
    exact m

/-- The invariant of one successful call with arguments in the domain. -/
theorem step_ok {p : Prop} {b : Backend V} (hb : Faithful b) {w : World V} (h : InvG p b w) {c : Call V} (ha : ArgsOK b w c) {o : Out V} {w' : World V} (hs : step b w c = .ok (o, w')) :
    CallOKG p b w w' o := by
  unfold step at hs
  split at hs
  case isFalse => cases hs
  rename_i hin
  have hw := h.winv.wf
  have hn := h.nn
  cases c with
  | array v =>
    obtain ⟨e, m, _⟩ := array_s b.A hw hn ha
    obtain ⟨r, g', e', rfl, rfl⟩ := madeE_eq hs
    rw [e] at e'; cases e'
    exact made_inv h m
  | arange n =>
    obtain ⟨e, m, _⟩ := array_s b.A hw hn (arange_rect b.A n)
    obtain ⟨r, g', e', rfl, rfl⟩ := madeE_eq hs
    unfold ND.arange at e'
    rw [e] at e'; cases e'
    exact made_inv h m
  | full s v =>
    obtain ⟨rfl, rfl⟩ := made_eq hs
    exact made_inv h (full_s b.A hw hn ha v).1
  | fullLike a v =>
    have hal := hin a (by simp [Call.arrays])
    obtain ⟨rfl, rfl⟩ := made_eq hs
    exact made_inv h (full_s b.A hw hn (hn a hal).1 v).1
  | onesLike a =>
    have hal := hin a (by simp [Call.arrays])
    obtain ⟨rfl, rfl⟩ := made_eq hs
    exact made_inv h (full_s b.A hw hn (hn a hal).1 _).1
  | zerosLike a =>
    have hal := hin a (by simp [Call.arrays])
    obtain ⟨rfl, rfl⟩ := made_eq hs
    exact made_inv h (full_s b.A hw hn (hn a hal).1 _).1
  | un op a =>
    have hal := hin a (by simp [Call.arrays])
    obtain ⟨rfl, rfl⟩ := made_eq hs
    exact made_inv h (unary_s hw hn hal op.isUnary).1
  | bin op x y =>
    have hx := hin x (by simp [Call.arrays])
    have hy := hin y (by simp [Call.arrays])
    obtain ⟨r, g', e', rfl, rfl⟩ := madeE_eq hs
    obtain ⟨s, hsh⟩ := binary_inv e'
    obtain ⟨r2, g2, e2, m, _⟩ := binary_s hw hn hx hy op.arith hsh
    rw [e2] at e'; cases e'
    exact made_inv h m
  | binScalar op x v =>
    have hx := hin x (by simp [Call.arrays])
    obtain ⟨r, g', e', rfl, rfl⟩ := madeE_eq hs
    obtain ⟨r2, g2, e2, m, _⟩ := binary_scalar b.A hw hn hx op.arith v
    rw [e2] at e'; cases e'
    exact made_inv h m
  | sum a ax kd =>
    have hal := hin a (by simp [Call.arrays])
    obtain ⟨r, g', e', rfl, rfl⟩ := madeE_eq hs
    obtain ⟨l, hl⟩ := sum_inv e'
    obtain ⟨r2, g2, e2, m, _⟩ := sum_s (kd := kd) hw hn hal hl
    rw [e2] at e'; cases e'
    exact made_inv h m
  | getitem a s =>
    have hal := hin a (by simp [Call.arrays])
    obtain ⟨r, g', e', rfl, rfl⟩ := madeE_eq hs
    obtain ⟨hl, subs, hsub⟩ := getitem_inv e'
    obtain ⟨r2, g2, e2, m, _⟩ := getitem_s hw hn hal hl hsub
    rw [e2] at e'; cases e'
    exact made_inv h m
  | broadcastTo a s =>
    have hal := hin a (by simp [Call.arrays])
    obtain ⟨rfl, rfl⟩ := made_eq hs
    exact made_inv h (broadcast_s hw hn hal ha.1 ha.2).1
  | reshape a s =>
    have hal := hin a (by simp [Call.arrays])
    obtain ⟨r, g', e', rfl, rfl⟩ := madeE_eq hs
    obtain ⟨r2, g2, e2, m, _⟩ := reshape_s hw hn hal (reshape_inv e') ha
    rw [e2] at e'; cases e'
    exact made_inv h m
  | T a =>
    have hal := hin a (by simp [Call.arrays])
    obtain ⟨r, g', e', rfl, rfl⟩ := madeE_eq hs
    obtain ⟨r2, g2, e2, m⟩ := T_s hw hn hal
    rw [e2] at e'; cases e'
    exact made_inv h m
  | transpose a axes =>
    have hal := hin a (by simp [Call.arrays])
    obtain ⟨r, g', e', rfl, rfl⟩ := madeE_eq hs
    obtain ⟨r2, g2, e2, m, _⟩ := transpose_s hw hn hal (transpose_inv e')
    rw [e2] at e'; cases e'
    exact made_inv h m
  | contiguous a =>
    have hal := hin a (by simp [Call.arrays])
    obtain ⟨rfl, rfl⟩ := made_eq hs
    exact made_inv h (contiguous_s hw hn hal).1
  | pad a d x y =>
    have hal := hin a (by simp [Call.arrays])
    obtain ⟨r, g', e', rfl, rfl⟩ := madeE_eq hs
    obtain ⟨r2, g2, e2, m, _⟩ := pad_s hw hn hal ha.1 (pad_inv e') ha.2
    rw [e2] at e'; cases e'
    exact made_inv h m
  | dilate a d st =>
    have hal := hin a (by simp [Call.arrays])
    obtain ⟨r, g', e', rfl, rfl⟩ := madeE_eq hs
    obtain ⟨h0, h1, h2⟩ := ha
    have hd := dilate_inv e'
    have hdl : d.toNat < (w.g.shape a).length := by unfold Graph.ndim at hd; omega
    have h3 : 0 ≤ geti (w.g.shape a) d.toNat := by
      rw [geti_eq_getElem hdl]; exact (hn a hal).1 _ (List.getElem_mem _)
    obtain ⟨r2, g2, e2, m, _⟩ := dilate_s hw hn hal h0 hd h1 (by
      rcases h2 with rfl | h2
      · omega
      · have : 0 ≤ (geti (w.g.shape a) d.toNat - 1) * st := Int.mul_nonneg (by omega) (by omega)
        omega)
    rw [e2] at e'; cases e'
    exact made_inv h m
  | materialize a =>
    have hal := hin a (by simp [Call.arrays])
    obtain ⟨hns, hnc, hne⟩ := ha
    obtain ⟨w1, e1, r1⟩ := materialize_ok hb h.winv hal hns hnc (fun hg => kernelSizes_of hw hal hns (hne hg))
    simp only [exec1, e1] at hs
    cases hs
    refine ⟨⟨r1.inv, by rw [r1.g]; exact hn, ?_, fun hp => materializeF_acc e1 (h.acc hp) r1.log⟩, ⟨by rw [r1.g]; exact .refl _, r1.cpuMono, r1.devMono⟩, by simp⟩
    intro i k hk
    rw [r1.grad] at hk
    rw [r1.g]
    exact h.gs i k hk
  | tolist a =>
    have hal := hin a (by simp [Call.arrays])
    have hbl := Nat.lt_of_le_of_lt (base_le hw hal) hal
    simp only [exec1] at hs
    have hav : Avail b w (base w.g a) := by
      cases ht : tolist b w a with
      | error e => rw [ht] at hs; cases hs
      | ok p =>
        unfold tolist at ht
        obtain ⟨w1, h1, _⟩ := except_bind_ok ht
        unfold ensureCpu at h1
        split at h1
        · rename_i l hl; exact .inl (by rw [hl]; rfl)
        · split at h1
          · rename_i hg
            split at h1
            · rename_i l hl; exact .inr ⟨hg, by rw [hl]; rfl⟩
            · cases h1
          · cases h1
    obtain ⟨l, cpu, ev, e, hi, hm, _⟩ := tolist_ok h.winv hal hav
    rw [e] at hs
    cases hs
    exact ⟨⟨hi, hn, h.gs, fun hp => ⟨(h.acc hp).nodup, (h.acc hp).keys, (h.acc hp).hist, (h.acc hp).hits, (h.acc hp).tick⟩⟩, ⟨.refl _, hm, fun _ h => h⟩, by simp⟩
  | backward a =>
    have hal := hin a (by simp [Call.arrays])
    obtain ⟨w1, order, e, r⟩ := backward_ok b.A hw hn h.gs hal ha
    simp only [exec1, e] at hs
    cases hs
    have hst := r.step
    have hrest := hst.rest
    have := h.winv.ext hst.ext hst.wf hst.nn w'.grad
    rw [hrest]
    refine ⟨⟨this, hst.nn, ?_, fun hp => ⟨(h.acc hp).nodup, (h.acc hp).keys, (h.acc hp).hist, (h.acc hp).hits, (h.acc hp).tick⟩⟩, ⟨hst.ext, fun _ h => h, fun _ h => h⟩, by simp⟩
    exact hst.gs
  | grad a =>
    have hal := hin a (by simp [Call.arrays])
    simp only [exec1] at hs
    cases hs
    refine ⟨h, .refl b w, fun r hr => ?_⟩
    cases hg : w.grad a with
    | none => rw [hg] at hr; cases hr
    | some k => rw [hg] at hr; cases hr; exact (h.gs a _ hg).2.1
  | clearGrad a =>
    simp only [exec1] at hs
    cases hs
    refine ⟨⟨?_, hn, ?_, fun hp => ⟨(h.acc hp).nodup, (h.acc hp).keys, (h.acc hp).hist, (h.acc hp).hits, (h.acc hp).tick⟩⟩, ⟨.refl _, fun _ h => h, fun _ h => h⟩, by simp⟩
    · exact h.winv.ext (.refl _) hw hn _
    · intro i k hk
      simp only at hk
      split at hk
      · cases hk
      · exact h.gs i k hk
  | setGrad a k =>
    simp only [exec1] at hs
    cases hs
    refine ⟨⟨?_, hn, ?_, fun hp => ⟨(h.acc hp).nodup, (h.acc hp).keys, (h.acc hp).hist, (h.acc hp).hits, (h.acc hp).tick⟩⟩, ⟨.refl _, fun _ h => h, fun _ h => h⟩, by simp⟩
    · exact h.winv.ext (.refl _) hw hn _
    · intro i k' hk
      simp only at hk
      split at hk
      · cases hk
        rename_i hi
        subst hi
        exact ⟨hin _ (by simp [Call.arrays]), hin _ (by simp [Call.arrays]), ha⟩
      · exact h.gs i k' hk
  | reset =>
    simp only [exec1] at hs
    cases hs
    refine ⟨⟨⟨hw, h.winv.nn, h.winv.cpu, h.winv.dev, by simp, h.winv.ev⟩, hn, h.gs, fun _ => ⟨by simp, by simp, rfl, by simp, rfl⟩⟩, ⟨.refl _, fun _ h => h, fun _ h => h⟩, by simp⟩

theorem Inv.init (b : Backend V) : Inv b (Mat.init : World V) := by
  refine ⟨⟨WF.nil, fun i hi => by simp [Mat.init] at hi, fun i l hl => by simp [Mat.init] at hl, fun i l hl => by simp [Mat.init] at hl, by simp [Mat.init], ?_⟩,
    fun i hi => by simp [Mat.init] at hi, fun i _ hk => by simp [Mat.init] at hk, fun _ => ⟨by simp [Mat.init], by simp [Mat.init], rfl, by simp [Mat.init], rfl⟩⟩
  exact ⟨.nil, fun i => by simp [Mat.init, Allocated, Since], fun i _ hi => by simp [Mat.init] at hi⟩

theorem next_ok {p : Prop} {b : Backend V} (hb : Faithful b) {w w' : World V} (h : InvG p b w) {c : Call V} (hl : Legal b w c) (hn : next b w c = some w') : InvG p b w' ∧ Later b w w' := by
  unfold next at hn
  cases hs : step b w c with
  | error e =>
    rw [hs] at hn
    simp only at hn
    split at hn
    · cases hn; exact ⟨h, .refl b w⟩
    · cases hn
  | ok p =>
    obtain ⟨o, w1⟩ := p
    rw [hs] at hn
    cases hn
    rcases hl with ⟨e, he⟩ | ha
    · rw [hs] at he; cases he
    · have := step_ok hb h ha hs
      exact ⟨this.inv, this.later⟩

theorem stopped_ok {p : Prop} {b : Backend V} {w w' : World V} (h : InvG p b w) {y : Nat} (hy : y < w.g.length) (ha : ArgsOK b w (.backward y)) (hs : Bwd.Stopped b.A w y w') :
    InvG p b w' ∧ Later b w w' := by
  have hst := (hs.bstep b.A h.winv.wf h.nn h.gs hy ha).1
  have := h.winv.ext hst.ext hst.wf hst.nn w'.grad
  rw [hst.rest]
  refine ⟨⟨this, hst.nn, hst.gs, fun hp => ⟨(h.acc hp).nodup, (h.acc hp).keys, (h.acc hp).hist, (h.acc hp).hits, (h.acc hp).tick⟩⟩, ⟨hst.ext, fun _ h => h, fun _ h => h⟩⟩

/-- Every reachable world satisfies the invariant. -/
theorem Reachable.inv {b : Backend V} (hb : Faithful b) {w : World V} (h : Reachable b w) : Inv b w := by
  induction h with
  | init => exact .init b
  | call _ hl hn ih => exact (next_ok hb ih hl hn).1
  | stopped _ hy ha hs ih => exact (stopped_ok ih hy ha hs).1

theorem Runs.later {b : Backend V} (hb : Faithful b) {w w' : World V} (h : Inv b w) (hr : Runs b w w') : Inv b w' ∧ Later b w w' := by
  induction hr with
  | refl => exact ⟨h, .refl b w⟩
  | call _ hl hn ih =>
    have := next_ok hb ih.1 hl hn
    exact ⟨this.1, ih.2.trans this.2⟩
  | stopped _ hy ha hs ih =>
    have := stopped_ok ih.1 hy ha hs
    exact ⟨this.1, ih.2.trans this.2⟩

theorem Runs.reachable {b : Backend V} {w w' : World V} (h : Reachable b w) (hr : Runs b w w') : Reachable b w' := by
  induction hr with
  | refl => exact h
  | call _ hl hn ih => exact .call ih hl hn
  | stopped _ hy ha hs ih => exact .stopped ih hy ha hs

end Whale
