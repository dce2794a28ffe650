import Verif.Proofs.Backward
/-
Gradient contributions depend only on the values of the incoming gradient at valid indices; validity of the index maps of the gradient rules.
-/
namespace Whale
variable {V : Type}

theorem valid_set {s j : List Int} {d : Nat} {m v : Int} (h : ValidIdx s j) (h0 : 0 ≤ v) (h1 : v < m) : ValidIdx (s.set d m) (j.set d v) := by
  rw [validIdx_iff] at h ⊢
  simp only [List.length_set]
  refine ⟨h.1, fun k hk => ?_⟩
  rw [geti_set, geti_set]
  by_cases hkd : d = k
  · subst hkd; simp [hk, h.1 ▸ hk, h0, h1]
  · simp [hkd, h.2 k hk]

theorem valid_perm_back {axes : List Nat} {s j : List Int} (h : axes.Perm (List.range s.length)) (hv : ValidIdx s j) : ValidIdx (axes.map (geti s)) (axes.map (geti j)) := by
  rw [validIdx_iff] at hv ⊢
  refine ⟨by simp, fun k hk => ?_⟩
  rw [List.length_map] at hk
  have hlt : axes[k] < s.length := perm_range_lt h (List.getElem_mem _)
  rw [geti_eq_getElem (by simpa using hk), geti_eq_getElem (by simpa using hk), List.getElem_map, List.getElem_map]
  exact hv.2 _ hlt

theorem valid_reshape {s t i : List Int} (hs : NonNeg s) (hp : prod t = prod s) (hv : ValidIdx t i) : ValidIdx s (unravel s (ravel t i)) := by
  have := ravel_bounds hv
  exact (valid_unravel hs this.1 (by omega)).1

theorem valid_geti {s j : List Int} (h : ValidIdx s j) {d : Nat} (hd : d < s.length) : 0 ≤ geti j d ∧ geti j d < geti s d := by
  rw [validIdx_iff] at h; exact h.2 d hd

theorem valid_pad_back {s j : List Int} {d : Nat} {b c : Int} (hd : d < s.length) (hb : 0 ≤ b) (hc : 0 ≤ c) (h : ValidIdx s j) :
    ValidIdx (s.set d (geti s d + (b + c))) (j.set d (b + geti j d)) := by
  have := valid_geti h hd
  exact valid_set h (by omega) (by omega)

theorem valid_dilate_back {s j : List Int} {d : Nat} {st : Int} (hd : d < s.length) (hst : 1 ≤ st) (h : ValidIdx s j) :
    ValidIdx (s.set d ((geti s d - 1) * st + 1)) (j.set d (geti j d * st)) := by
  have := valid_geti h hd
  refine valid_set h (Int.mul_nonneg this.1 (by omega)) ?_
  have : geti j d * st ≤ (geti s d - 1) * st := Int.mul_le_mul_of_nonneg_right (by omega) (by omega)
  omega

/-- Elementwise equivalence of lists of tensors. -/
def EquivL : List (Tensor V) → List (Tensor V) → Prop
  | [], [] => True
  | T :: l, U :: m => T.Equiv U ∧ EquivL l m
  | _, _ => False

theorem EquivL.refl : ∀ l : List (Tensor V), EquivL l l
  | [] => trivial
  | _ :: l => ⟨.refl _, EquivL.refl l⟩

theorem EquivL.append : ∀ {l l' m m' : List (Tensor V)}, EquivL l l' → EquivL m m' → EquivL (l ++ m) (l' ++ m')
  | [], [], _, _, _, h => h
  | _ :: _, _ :: _, _, _, h, k => ⟨h.1, EquivL.append h.2 k⟩

theorem Tensor.Equiv.map {t u : Tensor V} (f : V → V) (h : t.Equiv u) : (t.map f).Equiv (u.map f) :=
  ⟨h.1, fun i hi => by simp only [Tensor.map, h.2 i hi]⟩

theorem node_shape {g : Graph V} {t : Nat} {n : Node V} (e : g.nd t = n) : g.shape t = n.shape := by rw [← e]; rfl

theorem nodeVjp_congr (A : Scalar V) {g : Graph V} (h : WF g) (hnn : NN g) {t : Nat} (ht : t < g.length) (hgn : GradNode g t) {G G' : Tensor V} (hG : G.Equiv G')
    (hs : G.shape = g.shape t) : EquivL (nodeVjp A g t G) (nodeVjp A g t G') := by
  have hok := h t ht
  have har := (hnn t ht).2
  unfold NodeOK at hok
  unfold nodeVjp
  unfold GradNode at hgn
  have hctx : (g.nd t).ctx = g.ctx t := rfl
  have sht := den_shape A h ht
  cases hcx : g.ctx t with
  | const => trivial
  | unary op x =>
    rw [hctx, hcx] at hok
    obtain ⟨hx, ho, e⟩ := hok
    have hst : g.shape t = g.shape x := (node_shape e).trans rfl
    have shx := den_shape A h (show x < g.length by omega)
    refine ⟨?_, trivial⟩
    cases op <;> first | exact absurd ho (by decide) | skip
    case Neg => exact hG.map _
    case Sin => exact Tensor.Equiv.zip _ (.refl _) hG (by simp only [Tensor.map]; rw [shx, hs, hst])
    case Cos => exact Tensor.Equiv.zip _ (.refl _) hG (by simp only [Tensor.map]; rw [shx, hs, hst])
    case Exp => exact Tensor.Equiv.zip _ (.refl _) hG (by rw [sht, hs])
    case Log => exact Tensor.Equiv.zip _ hG (.refl _) (by rw [shx, hs, hst])
    case Sqrt => exact Tensor.Equiv.zip _ hG (.refl _) (by simp only [Tensor.map]; rw [sht, hs])
  | binary op l r =>
    rw [hctx, hcx] at hok
    obtain ⟨hl, hr, ho, hlr, e⟩ := hok
    have hst : g.shape t = g.shape l := (node_shape e).trans rfl
    have shl := den_shape A h (show l < g.length by omega)
    have shr := den_shape A h (show r < g.length by omega)
    rw [hcx] at har
    simp only [Arith, arith, List.mem_cons, List.not_mem_nil, or_false] at har
    rcases har with rfl | rfl | rfl | rfl | rfl
    · exact ⟨hG, hG, trivial⟩
    · exact ⟨hG, hG.map _, trivial⟩
    · exact ⟨Tensor.Equiv.zip _ hG (.refl _) (by rw [hs, shr, hst, hlr]), Tensor.Equiv.zip _ hG (.refl _) (by rw [hs, shl, hst]), trivial⟩
    · exact ⟨Tensor.Equiv.zip _ hG (.refl _) (by rw [hs, shr, hst, hlr]),
        Tensor.Equiv.zip _ hG (.refl _) (by simp only [Tensor.zip, Tensor.map]; rw [hs, shl, hst]), trivial⟩
    · exact ⟨Tensor.Equiv.zip _ (.refl _) hG (by simp only [Tensor.zip]; rw [hs, shr, hst, hlr]),
        Tensor.Equiv.zip _ (.refl _) hG (by simp only [Tensor.zip]; rw [hs, shl, hst]), trivial⟩
  | sum x axis kd =>
    rw [hctx, hcx] at hok
    obtain ⟨hx, _, e⟩ := hok
    have hst : g.shape t = Tensor.sumShape axis kd (g.shape x) := (node_shape e).trans rfl
    exact ⟨⟨rfl, fun j hj => hG.2 _ (by rw [hs, hst]; exact valid_sumProj hj)⟩, trivial⟩
  | reshape x s =>
    rw [hctx, hcx] at hok
    obtain ⟨hx, hp, hs1, _, _, e⟩ := hok
    have hst : g.shape t = s := (node_shape e).trans rfl
    refine ⟨⟨rfl, fun j hj => ?_⟩, trivial⟩
    simp only [Tensor.reshape]
    rw [← hG.1]
    exact hG.2 _ (by rw [hs, hst]; exact valid_reshape hs1 hp.symm hj)
  | broadcast x s =>
    refine ⟨⟨rfl, fun j hj => ?_⟩, trivial⟩
    simp only [bcastVjp]
    rw [← hG.1]
    have : ∀ (l : List (List Int)) (a : V), (∀ i ∈ l, ValidIdx G.shape i) → l.foldl (fun acc i => A.bin .Add acc (G.get i)) a = l.foldl (fun acc i => A.bin .Add acc (G'.get i)) a := by
      intro l
      induction l with
      | nil => intros; rfl
      | cons i l ih =>
        intro a hl
        simp only [List.foldl_cons]
        rw [hG.2 i (hl i (by simp))]
        exact ih _ fun k hk => hl k (by simp [hk])
    exact this _ _ fun i hi => mem_indices.1 (List.mem_filter.1 hi).1
  | slice x subs =>
    rw [hctx, hcx] at hok
    obtain ⟨hx, hso, e⟩ := hok
    have hst : g.shape t = Tensor.sliceShape subs := (node_shape e).trans (sliceLayout_shape (by rw [h.strides_length (by omega), hso.length]))
    refine ⟨⟨rfl, fun j hj => ?_⟩, trivial⟩
    simp only [sliceVjp]
    cases hu : unslice subs j with
    | none => rfl
    | some i =>
      simp only [scatter, List.nil_append]
      exact hG.2 _ (by rw [hs, hst]; exact ((unslice_iff hso hj.length).1 hu).1)
  | transpose x axes =>
    rw [hctx, hcx] at hok
    obtain ⟨hx, hp, e⟩ := hok
    have hst : g.shape t = axes.map (geti (g.shape x)) := (node_shape e).trans rfl
    exact ⟨⟨rfl, fun j hj => hG.2 _ (by rw [hs, hst]; exact valid_perm_back hp hj)⟩, trivial⟩
  | contiguous x => exact ⟨hG, trivial⟩
  | pad x dim b c =>
    rw [hctx, hcx] at hok
    obtain ⟨hx, hd, e⟩ := hok
    have hst : g.shape t = (g.shape x).set dim.toNat (geti (g.shape x) dim.toNat + (b + c)) := (node_shape e).trans rfl
    have hdl : dim.toNat < (g.shape x).length := by have := hd.2; simp only [Graph.ndim] at this; omega
    rw [hcx] at hgn
    exact ⟨⟨rfl, fun j hj => hG.2 _ (by rw [hs, hst]; exact valid_pad_back hdl hgn.1 hgn.2 hj)⟩, trivial⟩
  | dilate x dim st =>
    rw [hctx, hcx] at hok
    obtain ⟨hx, hd, h1, e⟩ := hok
    have hst : g.shape t = (g.shape x).set dim.toNat ((geti (g.shape x) dim.toNat - 1) * st + 1) := (node_shape e).trans rfl
    have hdl : dim.toNat < (g.shape x).length := by have := hd.2; simp only [Graph.ndim] at this; omega
    exact ⟨⟨rfl, fun j hj => hG.2 _ (by rw [hs, hst]; exact valid_dilate_back hdl h1 hj)⟩, trivial⟩

theorem pick_congr (i : Nat) : ∀ (xs : List Nat) {l m : List (Tensor V)}, EquivL l m →
    EquivL (((xs.zip l).filter (fun p => p.1 = i)).map (·.2)) (((xs.zip m).filter (fun p => p.1 = i)).map (·.2))
  | [], _, _, _ => by simp [EquivL]
  | _ :: _, [], [], _ => by simp [EquivL]
  | x :: xs, T :: l, U :: m, h => by
    have := pick_congr i xs h.2
    by_cases hx : x = i
    · simp only [List.zip_cons_cons, List.filter_cons, hx, decide_true, if_true, List.map_cons]; exact ⟨h.1, this⟩
    · simp only [List.zip_cons_cons, List.filter_cons, hx, decide_false]; exact this

theorem contribs_congr (A : Scalar V) {g : Graph V} (h : WF g) (hnn : NN g) {t : Nat} (ht : t < g.length) (hgn : GradNode g t) {G G' : Tensor V} (hG : G.Equiv G')
    (hs : G.shape = g.shape t) (i : Nat) : EquivL (contribs A g i t G) (contribs A g i t G') :=
  pick_congr i _ (nodeVjp_congr A h hnn ht hgn hG hs)

/-- Every contribution has the shape of the array it is for. -/
theorem contribs_shape (A : Scalar V) {g : Graph V} (h : WF g) (hnn : NN g) {t : Nat} (ht : t < g.length) {G : Tensor V}
    (hs : G.shape = g.shape t) (i : Nat) : ∀ U ∈ contribs A g i t G, U.shape = g.shape i := by
  intro U hU
  unfold contribs at hU
  obtain ⟨⟨x, T⟩, hp, rfl⟩ := List.mem_map.1 hU
  obtain ⟨hz, e⟩ := List.mem_filter.1 hp
  simp only [decide_eq_true_eq] at e
  subst e
  have hok := h t ht
  have har := (hnn t ht).2
  unfold NodeOK at hok
  unfold nodeVjp at hz
  have hctx : (g.nd t).ctx = g.ctx t := rfl
  have sht := den_shape A h ht
  cases hcx : g.ctx t <;> rw [hcx] at hz har <;> rw [hctx, hcx] at hok <;>
    simp only [Ctx.inputs, List.zip_cons_cons, List.zip_nil_left, List.zip_nil_right, List.mem_cons, List.not_mem_nil, or_false, Prod.mk.injEq] at hz
  case unary op y =>
    obtain ⟨rfl, rfl⟩ := hz
    obtain ⟨hx, ho, e⟩ := hok
    have hst : g.shape t = g.shape x := (node_shape e).trans rfl
    have shx := den_shape A h (show x < g.length by omega)
    cases op <;> first | exact absurd ho (by decide) | skip
    all_goals simp only [unaryVjp, Tensor.map, Tensor.zip]; first | rw [shx] | rw [sht, hst] | rw [hs, hst]
  case binary op l r =>
    obtain ⟨hl, hr, ho, hlr, e⟩ := hok
    have hst : g.shape t = g.shape l := (node_shape e).trans rfl
    have shl := den_shape A h (show l < g.length by omega)
    have shr := den_shape A h (show r < g.length by omega)
    simp only [Arith, arith, List.mem_cons, List.not_mem_nil, or_false] at har
    rcases har with rfl | rfl | rfl | rfl | rfl <;>
      simp only [binaryVjp, List.zip_cons_cons, List.zip_nil_left, List.zip_nil_right, List.mem_cons, List.not_mem_nil, or_false, Prod.mk.injEq] at hz <;>
      rcases hz with ⟨rfl, rfl⟩ | ⟨rfl, rfl⟩ <;> simp only [Tensor.map, Tensor.zip] <;> first | (rw [hs, hst]; done) | (rw [hs, hst, hlr]; done) | (rw [shr, hlr]; done) | (rw [shl, hlr]; done) | (rw [shr]; done) | (rw [shl]; done) | (rw [shr, ← hlr])
  all_goals
    obtain ⟨rfl, rfl⟩ := hz
  case contiguous =>
    obtain ⟨hx, e⟩ := hok
    exact hs.trans ((node_shape e).trans rfl)
  all_goals rfl

theorem foldl_addGrad_congrL (A : Scalar V) {s : List Int} : ∀ {l m : List (Tensor V)}, EquivL l m → (∀ T ∈ l, T.shape = s) → ∀ {o p : Option (Tensor V)}, OptEq o p → OptShape s o →
    OptEq (l.foldl (addGrad A) o) (m.foldl (addGrad A) p)
  | [], [], _, _, _, _, h, _ => h
  | T :: l, U :: m, hlm, hl, o, p, h, ho => by
    exact foldl_addGrad_congrL A hlm.2 (fun U hU => hl U (List.mem_cons_of_mem _ hU)) (h.addGrad A hlm.1 ho (hl T (by simp))) (addGrad_shape A ho (hl T (by simp)))

end Whale
